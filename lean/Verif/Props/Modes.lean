import Verif.Props.Documents
import Verif.Props.Failures

/-!
# What lite and restricted mode do to documents of simple blocks: C12, C23, C24, C25, C50

The parts that hold of properties that are false in general; the texts that contradict
them are in `Verif/Props/Failures.lean` and `Verif/Props/Wrong.lean`.
-/

namespace Rustextile

/-- `w` is split at its first full stop in one way only. -/
theorem first_dot {w v a b : Str} (hw : '.' ∉ w) (hv : '.' ∉ v) (e : w ++ '.' :: a = v ++ '.' :: b) : w = v := by
  induction w generalizing v with
  | nil =>
    cases v with
    | nil => rfl
    | cons c v => simp only [List.nil_append, List.cons_append, List.cons.injEq] at e; simp [← e.1] at hv
  | cons c w ih =>
    cases v with
    | nil => simp only [List.nil_append, List.cons_append, List.cons.injEq] at e; simp [e.1] at hw
    | cons d v =>
      simp only [List.cons_append, List.cons.injEq] at e
      rw [e.1, ih (by simp at hw; exact hw.2) (by simp at hv; exact hv.2) e.2]

theorem liteWord_nodot {w : Str} (h : Spec.liteWord w) : '.' ∉ w := by
  revert h; unfold Spec.liteWord; intro h; simp at h; rcases h with rfl | rfl | rfl <;> decide

theorem fullWord_nodot {U : Uni} (hU : UniOk U) {w : Str} (h : Spec.fullWord U.isNd w) : '.' ∉ w := by
  rcases h with h | ⟨d, ds, rfl, hd⟩
  · revert w; decide
  · simp only [List.mem_cons, not_or]
    refine ⟨by decide, by decide, ?_, ?_⟩
    · rintro rfl
      have := hd '.' (by simp)
      rw [hU.dec _ (by decide)] at this; revert this; decide
    · intro hm
      have := hd '.' (List.mem_cons_of_mem _ hm)
      rw [hU.dec _ (by decide)] at this; revert this; decide

/-- **C12, the part that holds.** In lite mode a block that starts with any tag other than
`p`, `bq` and `bc` (headings, preformatted and verbatim blocks, footnotes) is a paragraph
that shows the tag.  Missing: the same for texts with markup and for tags with attributes or
with two full stops; code blocks, for which it is false (**C12_negation**). -/
theorem C12_lite_partial (E : Env) (hU : UniOk E.U) (fuel : Nat) (hf : 3 ≤ fuel) (cfg : Cfg) (base : Str)
    (hb : Spec.PlainBase base) (huid : cfg.uid = t!"textileRef:" ++ base ++ t!":")
    (hbt : cfg.blockTags = true) (hsan : cfg.sanitizer = none) (hlite : cfg.lite = true)
    (w t : Str) (ls : List Str) (hw : Spec.fullWord E.U.isNd w) (hnl : ¬ Spec.liteWord w)
    (hp : Spec.Paragraph E.U.isLu ((w ++ t!". " ++ t) :: ls)) :
    parseFresh E fuel cfg (Spec.join t!"\n" ((w ++ t!". " ++ t) :: ls)) =
      .ok (t!"<p>" ++ Spec.join (if cfg.html5 then t!"<br>\n" else t!"<br />\n") ((w ++ t!". " ++ t) :: ls) ++ t!"</p>") := by
  have hj : ∃ u, Spec.join t!"\n" ((w ++ t!". " ++ t) :: ls) = w ++ '.' :: ' ' :: u := by
    cases ls with
    | nil => exact ⟨t, by simp [Spec.join]⟩
    | cons l ls => exact ⟨t ++ '\n' :: Spec.join t!"\n" (l :: ls), by simp [Spec.join]⟩
  obtain ⟨u, hu⟩ := hj
  refine C09_paragraph E hU fuel hf cfg base hb huid hbt hsan _ hp ?_ ?_
  · intro v b e hv
    rw [hlite] at hv
    have hv : Spec.liteWord v := hv
    rw [hu] at e
    exact hnl (first_dot (fullWord_nodot hU hw) (liteWord_nodot hv) e ▸ hv)
  · rw [hu]
    rintro ⟨z, hz⟩
    rcases hw with h | ⟨d, ds, rfl, -⟩
    · simp only [List.mem_cons, List.not_mem_nil, or_false] at h
      rcases h with rfl | rfl | rfl | rfl | rfl | rfl | rfl | rfl | rfl | rfl | rfl | rfl <;>
        simp at hz
    · simp at hz

example : parseFresh demoEnv 3 { demoCfg with lite := true } t!"h1. A title\nand more" =
    .ok t!"<p>h1. A title<br>\nand more</p>" :=
  C12_lite_partial demoEnv UniOk.demo 3 (by decide) _ t!"abc" plainBase_demo rfl rfl rfl rfl t!"h1" t!"A title" [t!"and more"]
    (.inl (by decide)) (by simp [Spec.liteWord]) ⟨by simp, by
      intro l hl
      simp only [List.mem_cons, List.not_mem_nil, or_false] at hl
      rcases hl with rfl | rfl <;> exact line_of_B (by decide) rfl⟩

/-- **C23 and C24, the part that holds.** For documents of simple blocks `parse` returns a
text: it does not panic, and it takes finitely many steps (already with two rounds for each
of the three loops that are not bounded by the length of a text).  Missing: documents with
inline markup, tables, lists, links and notes; for some of these it is false
(**C23_negation**, **C24_negation**). -/
theorem C23_C24_documents_partial (E : Env) (hU : UniOk E.U) (fuel : Nat) (hf : 3 ≤ fuel) (cfg : Cfg) (base : Str)
    (hb : Spec.PlainBase base) (huid : cfg.uid = t!"textileRef:" ++ base ++ t!":")
    (hbt : cfg.blockTags = true) (hsan : cfg.sanitizer = none) (ds : List (Spec.Block × Nat)) (hne : ds ≠ [])
    (hok : ∀ d ∈ ds, d.1.Ok E.U.isLu E.U.isNd cfg.lite) (htok : ¬ cfg.uid <:+: Spec.source ds) :
    ∃ out, parseFresh E fuel cfg (Spec.source ds) = .ok out :=
  ⟨_, C51_documents E hU fuel hf cfg base hb huid hbt hsan ds hne hok htok⟩

example : ∃ out, parseFresh demoEnv 3 demoCfg (Spec.source demoDoc) = .ok out :=
  C23_C24_documents_partial demoEnv UniOk.demo 3 (by decide) demoCfg t!"abc" plainBase_demo rfl rfl rfl demoDoc (by decide)
    demoDoc_ok (by decide +kernel)

/-! ## Restricted mode -/

section Tags
variable {tags : List Str}

theorem OnlyTags.none {t : Str} (h : '<' ∉ t) : Spec.OnlyTags tags t := by
  rintro a b rfl; simp at h

theorem OnlyTags.append {t u : Str} (ht : Spec.OnlyTags tags t) (hu : Spec.OnlyTags tags u) : Spec.OnlyTags tags (t ++ u) := by
  intro a b e
  rcases List.append_eq_append_iff.1 e with ⟨c, rfl, e2⟩ | ⟨c, rfl, e2⟩
  · exact hu c b e2
  · cases c with
    | nil => exact hu [] b (by simpa using e2.symm)
    | cons d c =>
      simp only [List.cons_append, List.cons.injEq] at e2
      obtain ⟨tag, hm, hp⟩ := ht a c (by rw [← e2.1])
      exact ⟨tag, hm, hp.trans ⟨u, by simp [e2.2]⟩⟩

theorem OnlyTags.tag {t : Str} (h : '<' :: t ∈ tags) (hn : '<' ∉ t) : Spec.OnlyTags tags ('<' :: t) := by
  intro a b e
  cases a with
  | nil =>
    simp only [List.nil_append, List.cons.injEq, true_and] at e
    subst e; exact ⟨_, h, List.prefix_refl _⟩
  | cons c a =>
    simp only [List.cons_append, List.cons.injEq] at e
    rw [e.2] at hn; simp at hn

theorem OnlyTags.prefix {t u : Str} (hnl : ∀ tag ∈ tags, '\n' ∉ tag) (hu : ∀ c ∈ u, c = '\n')
    (h : Spec.OnlyTags tags (t ++ u)) : Spec.OnlyTags tags t := by
  rintro a b rfl
  obtain ⟨tag, hm, hp⟩ := h a (b ++ u) (by simp)
  refine ⟨tag, hm, ?_⟩
  rw [← List.cons_append] at hp
  obtain ⟨z, hz⟩ := hp
  rcases List.append_eq_append_iff.1 hz with ⟨c, e, -⟩ | ⟨c, e, e2⟩
  · exact ⟨c, e.symm⟩
  · cases c with
    | nil => rw [e]; simp
    | cons d c =>
      exfalso
      have : d = '\n' := hu d (by rw [e2]; simp)
      exact hnl _ hm (by rw [e, this]; simp)

end Tags

theorem simple_nonl : ∀ tag ∈ Spec.simpleTags, '\n' ∉ tag := by decide

theorem simple_element {w t : Str} (hw : (t!"<" ++ w ++ t!">") ∈ Spec.simpleTags ∧ (t!"</" ++ w ++ t!">") ∈ Spec.simpleTags)
    (hn : '<' ∉ w) (ht : Spec.OnlyTags Spec.simpleTags t) : Spec.OnlyTags Spec.simpleTags (Spec.element w t) := by
  have e : Spec.element w t = (t!"<" ++ w ++ t!">") ++ (t ++ (t!"</" ++ w ++ t!">")) := by simp [Spec.element]
  rw [e]
  refine OnlyTags.append (OnlyTags.tag (t := w ++ t!">") hw.1 (by simp [hn])) (OnlyTags.append ht ?_)
  exact OnlyTags.tag (t := '/' :: w ++ t!">") hw.2 (by simp [hn])

theorem simple_join {sep : Str} (hs : Spec.OnlyTags Spec.simpleTags sep) : ∀ {ls : List Str},
    (∀ l ∈ ls, '<' ∉ l) → Spec.OnlyTags Spec.simpleTags (Spec.join sep ls)
  | [], _ => OnlyTags.none (by simp [Spec.join])
  | [l], h => OnlyTags.none (h l (by simp))
  | l :: m :: ls, h => by
    have := simple_join hs (ls := m :: ls) (fun x hx => h x (List.mem_cons_of_mem _ hx))
    have e : Spec.join sep (l :: m :: ls) = l ++ (sep ++ Spec.join sep (m :: ls)) := by simp [Spec.join]
    rw [e]
    exact OnlyTags.append (OnlyTags.none (h l (by simp))) (OnlyTags.append hs this)

theorem escape_nolt (q : Bool) (t : Str) : '<' ∉ Spec.escape q t := by
  rw [escape_eq]
  intro hm
  obtain ⟨d, -, hd⟩ := List.mem_flatMap.1 hm
  exact (mem_encChar hd).1 rfl

theorem simple_block {br : Str} (hbr : br = t!"<br>" ∨ br = t!"<br />") {up nd : Char → Bool} {lite : Bool}
    {b : Spec.Block} (h : b.Ok up nd lite) : Spec.OnlyTags Spec.simpleTags (b.escaped.html br) := by
  have hsep : Spec.OnlyTags Spec.simpleTags (br ++ t!"\n") := by
    rcases hbr with rfl | rfl <;>
      exact OnlyTags.append (OnlyTags.tag (by decide) (by decide)) (OnlyTags.none (by decide))
  have hpar : ∀ ls, Spec.Paragraph up ls → Spec.OnlyTags Spec.simpleTags (Spec.join (br ++ t!"\n") ls) := fun ls hp =>
    simple_join hsep (fun l hl => line_nochar (hp.lines l hl).toWords (by decide))
  have hnolt : ∀ ls : List Str, ∀ l ∈ ls.map (Spec.escape false), '<' ∉ l := by
    intro ls l hl
    obtain ⟨m, -, rfl⟩ := List.mem_map.1 hl
    exact escape_nolt _ _
  cases b with
  | para ls => exact simple_element (by decide) (by decide) (hpar ls h.1)
  | tagged tag ls =>
    refine simple_element ?_ ?_ (hpar ls h.1)
    all_goals
      have := h.2.1
      revert this
      cases lite <;> simp only [if_true, if_false, Bool.false_eq_true, List.mem_cons, List.not_mem_nil, or_false]
    · rintro (rfl | rfl | rfl | rfl | rfl | rfl | rfl) <;> decide
    · rintro rfl; decide
    · rintro (rfl | rfl | rfl | rfl | rfl | rfl | rfl) <;> decide
    · rintro rfl; decide
  | quote ls =>
    refine simple_element (by decide) (by decide) ?_
    exact OnlyTags.append (OnlyTags.append (OnlyTags.none (by decide))
      (simple_element (by decide) (by decide) (hpar ls h.1))) (OnlyTags.none (by decide))
  | verbatim tag ls =>
    simp only [Spec.Block.escaped, Spec.Block.html]
    split
    · exact simple_element (by decide) (by decide) (simple_element (by decide) (by decide) (OnlyTags.none (escape_nolt _ _)))
    · split
      · exact simple_element (by decide) (by decide) (OnlyTags.none (escape_nolt _ _))
      · exact simple_join (OnlyTags.none (by decide)) (hnolt ls)
  | comment ls => exact OnlyTags.none (by simp [Spec.Block.escaped, Spec.Block.html])

theorem simple_glue : ∀ {ts : List (Str × Nat)}, (∀ t ∈ ts, Spec.OnlyTags Spec.simpleTags t.1) →
    Spec.OnlyTags Spec.simpleTags (Spec.glue ts)
  | [], _ => OnlyTags.none (by simp [Spec.glue])
  | [t], h => h t (by simp)
  | (t, k) :: p :: ps, h => by
    have := simple_glue (ts := p :: ps) (fun x hx => h x (List.mem_cons_of_mem _ hx))
    exact OnlyTags.append (h (t, k) (by simp)) (OnlyTags.append (OnlyTags.none (by simp)) this)

/-- **C25, the part that holds.** In restricted mode, whatever is written in the code
blocks, preformatted blocks, verbatim blocks and comments of a document, every `<` of the
output starts one of the tags the parser makes for paragraphs, headings, quotations,
preformatted text, code and breaks, without attributes: no tag of the input gets through.
Missing: documents with inline markup, tables, lists, links and notes; with links it is
false (**C25_negation**). -/
theorem C25_documents_partial (E : Env) (hU : UniOk E.U) (fuel : Nat) (hf : 3 ≤ fuel) (cfg : Cfg) (base : Str)
    (hb : Spec.PlainBase base) (huid : cfg.uid = t!"textileRef:" ++ base ++ t!":")
    (hbt : cfg.blockTags = true) (hsan : cfg.sanitizer = none) (hr : cfg.restricted = true)
    (ds : List (Spec.Block × Nat)) (hne : ds ≠ [])
    (hok : ∀ d ∈ ds, d.1.Ok E.U.isLu E.U.isNd cfg.lite) (htok : ¬ cfg.uid <:+: Spec.source ds) :
    ∃ out, parseFresh E fuel cfg (Spec.source ds) = .ok out ∧ Spec.OnlyTags Spec.simpleTags out := by
  refine ⟨_, C51_documents E hU fuel hf cfg base hb huid hbt hsan ds hne hok htok, ?_⟩
  rw [if_pos hr]
  generalize hbr : (if cfg.html5 then t!"<br>" else t!"<br />") = br
  have hbr : br = t!"<br>" ∨ br = t!"<br />" := by cases h : cfg.html5 <;> simp [h] at hbr <;> simp [← hbr]
  unfold Spec.html
  rw [← dropFinalNewlines_eq]
  obtain ⟨u, hu, he⟩ := trimEndP_spec (· == '\n')
    (Spec.glue (((ds.map fun d => (d.1.escaped, d.2)).filter (fun d => !d.1.isComment)).map (fun d => (d.1.html br, d.2))))
  refine OnlyTags.prefix simple_nonl (u := u) (by simpa using he) ?_
  rw [← hu]
  refine simple_glue ?_
  intro t ht
  obtain ⟨d, hd, rfl⟩ := List.mem_map.1 ht
  obtain ⟨e, he, rfl⟩ := List.mem_map.1 (List.mem_filter.1 hd).1
  exact simple_block hbr (hok e he)

example : ∃ out, parseFresh demoEnv 3 { demoCfg with restricted := true } (Spec.source demoDoc) = .ok out ∧
    Spec.OnlyTags Spec.simpleTags out :=
  C25_documents_partial demoEnv UniOk.demo 3 (by decide) _ t!"abc" plainBase_demo rfl rfl rfl rfl demoDoc (by decide)
    demoDoc_ok (by decide +kernel)

/-- **C50, the part that holds.** In restricted mode the content of a code block reads as
the escaped text, hence as what was typed if that contains none of the characters `&`, `<`
and `>` (quotes do no harm), and it contains no markup.  With one of these characters it is
false (**C50_negation**). -/
theorem C50_code_block_partial (E : Env) (hU : UniOk E.U) (fuel : Nat) (hf : 3 ≤ fuel) (cfg : Cfg) (base : Str)
    (hb : Spec.PlainBase base) (huid : cfg.uid = t!"textileRef:" ++ base ++ t!":")
    (hbt : cfg.blockTags = true) (hsan : cfg.sanitizer = none) (hr : cfg.restricted = true)
    (t : Str) (hnl : '\n' ∉ t ∧ '\r' ∉ t) (htok : ¬ cfg.uid <:+: t!"bc. " ++ t) :
    ∃ body, parseFresh E fuel cfg (t!"bc. " ++ t) = .ok (t!"<pre><code>" ++ body ++ t!"</code></pre>") ∧
      Spec.decode (Spec.decode body) = t ∧ ((∀ c ∈ t, c ≠ '&' ∧ c ≠ '<' ∧ c ≠ '>') → Spec.decode body = t) ∧
      ∀ c ∈ t!"<>\"'", c ∉ body := by
  have hs : (Spec.Block.verbatim t!"bc" [t]).source = t!"bc. " ++ t := by simp [Spec.Block.source, Spec.join]
  have := one_block E hU fuel hf cfg base hb huid hbt hsan (.verbatim t!"bc" [t])
    ⟨⟨hnl, by simp⟩, by simp, fun h => absurd h (by decide)⟩ (by rw [hs]; exact htok)
  rw [hs, hr] at this
  have hd : Spec.decode (encodeHtml (encodeHtml t false false) true false) = encodeHtml t false false := by
    rw [decode_encodeHtml, map_encDec_false]
  refine ⟨encodeHtml (encodeHtml t false false) true false, ?_, ?_, ?_, ?_⟩
  · rw [this, if_pos rfl, html_single (b := Spec.Block.escaped (.verbatim t!"bc" [t])) rfl (element_last _ _)]
    simp [Spec.Block.html, Spec.Block.escaped, Spec.element, Spec.join, escape_eq]
  · rw [hd, decode_encodeHtml, map_encDec_false]
  · intro ht
    rw [hd]
    clear this hd hs htok hnl
    induction t with
    | nil => rfl
    | cons c t ih =>
      have hc := ht c (by simp)
      have := ih (fun x hx => ht x (List.mem_cons_of_mem _ hx))
      simp only [encodeHtml, List.flatMap_cons] at this ⊢
      rw [this]
      simp [encChar, hc]
  · intro c hc hm
    obtain ⟨d, -, hd⟩ := List.mem_flatMap.1 hm
    have := mem_encChar hd
    simp at hc
    rcases hc with rfl | rfl | rfl | rfl <;> simp at this

example : ∃ body, parseFresh demoEnv 3 { demoCfg with restricted := true } t!"bc. *a* \"b\":c" =
    .ok (t!"<pre><code>" ++ body ++ t!"</code></pre>") ∧
      Spec.decode (Spec.decode body) = t!"*a* \"b\":c" ∧
      ((∀ c ∈ t!"*a* \"b\":c", c ≠ '&' ∧ c ≠ '<' ∧ c ≠ '>') → Spec.decode body = t!"*a* \"b\":c") ∧
      ∀ c ∈ t!"<>\"'", c ∉ body :=
  C50_code_block_partial demoEnv UniOk.demo 3 (by decide) _ t!"abc" plainBase_demo rfl rfl rfl rfl _ (by decide) (by decide)

end Rustextile
