import Verif.StyledDoc

/-!
# Documents of blocks of all kinds, from their description
-/

namespace Rustextile

open Prog

theorem elementWith_eq (tag att c : Str) : Spec.elementWith tag att c = openTagA tag att ++ (c ++ closeTag tag) := by
  simp [Spec.elementWith, openTagA, closeTag]

theorem tagged_chars : ∀ tag ∈ brTags, '\n' ∉ tag ∧ '\r' ∉ tag ∧ encodeHtml tag false false = tag ∧ ∃ c u, tag = c :: u ∧ isWs c = false := by
  intro tag h
  simp only [brTags, List.mem_cons, List.not_mem_nil, or_false] at h
  rcases h with rfl | rfl | rfl | rfl | rfl | rfl | rfl <;> exact ⟨by decide, by decide, by decide, _, _, rfl, by decide⟩

theorem raw_chars : ∀ tag ∈ [t!"bc", t!"pre", t!"notextile"], '\n' ∉ tag ∧ '\r' ∉ tag ∧ encodeHtml tag false false = tag ∧
    ∃ c u, tag = c :: u ∧ isWs c = false := by
  intro tag h
  simp only [List.mem_cons, List.not_mem_nil, or_false] at h
  rcases h with rfl | rfl | rfl <;> exact ⟨by decide, by decide, by decide, _, _, rfl, by decide⟩

theorem enc_atts {a : Spec.Atts} (h : a.Ok) (hw : a.Written true) : encodeHtml a.source false false = a.source := by
  apply enc_id
  intro c hc hm
  have h1 := atts_mem h hc
  have h2 : c = '<' ∨ c = '>' := by
    have : ∀ c ∈ t!"&<>\"'", c ∈ styleChars ++ t!";<>=(){}[]" → c = '<' ∨ c = '>' := by decide +kernel
    exact this c hm h1
  rcases List.mem_append.1 hc with hc | hc
  · rw [marks_eq] at hc
    rcases List.mem_append.1 hc with hc | hc
    · have := hw rfl
      revert hc this
      cases a.align with
      | none => intro h; cases h
      | some x =>
        cases x
        · intro _ h; exact absurd h id
        · intro h
          have h : c ∈ ['='] := h
          rw [List.mem_singleton] at h; subst h
          revert h2; decide
        · intro _ h; exact absurd h id
        · intro _ h; exact absurd h id
    · rcases List.mem_append.1 hc with hc | hc <;> have := List.eq_of_mem_replicate hc <;> subst this <;> revert h2 <;> decide
  · obtain ⟨g, hg, hc⟩ := List.mem_flatMap.1 hc
    rcases group_mem (h.1 g hg) hc with h3 | h3
    · have : ∀ c ∈ t!"<>", c ∉ styleChars ++ t!";" := by decide +kernel
      exact this c (by rcases h2 with rfl | rfl <;> decide) h3
    · revert h3
      cases g.kind <;> rintro (rfl | rfl) <;> revert h2 <;> decide

theorem before_enc {a : Spec.Atts} {t : Str} (h : a.Before t) : a.Before (encodeHtml t false false) := by
  rcases h with h | h | h
  · exact .inl h
  · exact .inr (.inl h)
  · exact .inr (.inr (fun hm => h (enc_mem (by decide) hm)))

theorem sep_amp : Spec.tokenChar '&' = false ∧ Spec.tokenChar ';' = false := by decide

theorem untouched_escape {ls : List Str} (h : Spec.Untouched ls) : Spec.Untouched (ls.map (Spec.escape false)) := by
  obtain ⟨h1, h2, h3⟩ := h
  refine ⟨?_, ?_, ?_⟩
  · intro l hl
    obtain ⟨x, hx, rfl⟩ := List.mem_map.1 hl
    rw [escape_eq]
    constructor <;> (rintro ⟨a, b, e⟩; exact enc_nolt (q := false) (t := x) (by rw [← e]; simp))
  · rw [← enc_join]
    obtain ⟨c, u, e⟩ := List.exists_cons_of_ne_nil h2
    obtain ⟨d, v, e', -⟩ := enc_first (c := c) (t := u)
    rw [show Spec.join t!"\n" ls = c :: u from e, e']; simp
  · rw [← enc_join]
    intro hc
    obtain ⟨⟨c, u, e, k1⟩, ⟨v, d, e', k2⟩⟩ := h3 (enc_mem (by decide) hc)
    constructor
    · obtain ⟨x, y, e2, hx⟩ := enc_first (c := c) (t := u)
      refine ⟨x, y, by rw [e, e2], ?_⟩
      rcases hx with rfl | rfl
      · exact k1
      · exact sep_amp.1
    · obtain ⟨x, y, e2, hx⟩ := enc_last (c := d) (t := v)
      refine ⟨x, y, by rw [e', e2], ?_⟩
      rcases hx with rfl | rfl
      · exact k2
      · exact sep_amp.2

theorem rawLines_escape {ls : List Str} (h : Spec.RawLines ls) : Spec.RawLines (ls.map (Spec.escape false)) := by
  cases ls with
  | nil => exact h
  | cons l ls =>
    refine ⟨?_, ?_⟩
    · rw [escape_eq]
      exact ⟨fun hc => h.1.1 (enc_mem (by decide) hc), fun hc => h.1.2 (enc_mem (by decide) hc)⟩
    · intro m hm
      obtain ⟨x, hx, rfl⟩ := List.mem_map.1 hm
      exact raw_escape (h.2 x hx)

/-- A block of which the source is escaped first. -/
theorem escaped_node {C : Ctx} (hU : UniOk C.U) {b : Spec.Node} (h : b.Ok C.U.isLu C.U.isNd C.cfg.lite true) :
    b.escaped.Ok C.U.isLu C.U.isNd C.cfg.lite true ∧ encodeHtml b.source false false = b.escaped.source := by
  have hn : ∀ t : Spec.Marked, t.Ok C.U.isLu C.cfg.lite → ¬ Spec.notelistWord <+: t.source → ¬ Spec.notelistWord <+: t.escaped.source := by
    intro t ht hn hp
    rw [← enc_marked ht] at hp
    exact hn (prefix_enc (by decide) hp)
  cases b with
  | piece b => exact escaped_piece hU h
  | styled tag a t =>
    obtain ⟨h1, h2, h3, h4, h5, h6⟩ := h
    refine ⟨⟨escaped_marked h1, h2, h3, ?_, h5, fun e => hn t h1 (h6 e)⟩, ?_⟩
    · rw [← enc_marked h1]; exact before_enc h4
    · simp only [Spec.Node.source, Spec.Node.escaped]
      rw [enc_append, enc_append, enc_append, enc_marked h1, enc_atts h2 h3, (tagged_chars tag (tagged_mem h5).1).2.2.1]
      rfl
  | quoted a t =>
    obtain ⟨h1, h2, h3, h4, h6⟩ := h
    refine ⟨⟨escaped_marked h1, h2, h3, ?_, hn t h1 h6⟩, ?_⟩
    · rw [← enc_marked h1]; exact before_enc h4
    · simp only [Spec.Node.source, Spec.Node.escaped]
      rw [enc_append, enc_append, enc_append, enc_marked h1, enc_atts h2 h3]
      rfl
  | verbatim tag a ls =>
    obtain ⟨h1, h2, h3, h4, h5, h6⟩ := h
    refine ⟨⟨rawLines_escape h1, h2, h3, ?_, h5, fun e => untouched_escape (h6 e)⟩, ?_⟩
    · have := before_enc h4
      rw [enc_join] at this; exact this
    · simp only [Spec.Node.source, Spec.Node.escaped]
      rw [enc_append, enc_append, enc_append, enc_atts h2 h3, (raw_chars tag (verbatim_mem h5).1).2.2.1, enc_join]
      rfl

/-! ## Lines -/

theorem lines_prefix {p : Str} {ls : List Str} (hp : '\n' ∉ p ∧ '\r' ∉ p ∧ ¬ Spec.BlankLine p) (h : Spec.RawLines ls) :
    ∃ ls', ls' ≠ [] ∧ (∀ l ∈ ls', Spec.RawLine l) ∧ p ++ Spec.join t!"\n" ls = Spec.join t!"\n" ls' := by
  cases ls with
  | nil => exact absurd h id
  | cons l ls =>
    refine ⟨(p ++ l) :: ls, by simp, ?_, (join_prefix p t!"\n" l ls).symm⟩
    intro x hx
    rcases List.mem_cons.1 hx with rfl | hx
    · refine ⟨by simp [hp.1, h.1.1], by simp [hp.2.1, h.1.2], ?_⟩
      intro hb
      exact hp.2.2 (fun c hc => hb c (by simp [hc]))
    · exact h.2 x hx

theorem atts_nonl {a : Spec.Atts} (h : a.Ok) : '\n' ∉ a.source ∧ '\r' ∉ a.source :=
  ⟨atts_not h (by decide +kernel), atts_not h (by decide +kernel)⟩

theorem marked_tagLines {up : Char → Bool} {lite : Bool} {t : Spec.Marked} (ht : t.Ok up lite) {tag : Str} {a : Spec.Atts} (h : a.Ok)
    (h1 : '\n' ∉ tag ∧ '\r' ∉ tag ∧ encodeHtml tag false false = tag ∧ ∃ c u, tag = c :: u ∧ isWs c = false) :
    (∃ ls, ls ≠ [] ∧ (∀ l ∈ ls, Spec.RawLine l) ∧ tag ++ (a.source ++ (t!". " ++ t.source)) = Spec.join t!"\n" ls) ∧
    ∃ c u, tag ++ (a.source ++ (t!". " ++ t.source)) = c :: u ∧ isWs c = false := by
  obtain ⟨k1, k2⟩ := marked_lined ht
  obtain ⟨a1, a2⟩ := atts_nonl h
  obtain ⟨g1, g2, -, c, u, rfl, hc⟩ := h1
  refine ⟨?_, c, _, rfl, hc⟩
  have hl : lined (u ++ (a.source ++ (t!". " ++ t.source))) = true :=
    lined_text (by simp at g1; exact g1.2) (lined_text a1 (lined_text (by decide) k1))
  have := lines_of _ (p := [c]) hl (by simp at g2; simp [g2, a2, k2]) (by simp; rintro rfl; revert hc; decide) (blank_not hc)
  simpa using this

/-! ## Blocks -/

theorem Num.aux {N : Spec.Numbers} {σ σ' : PState} (h : Num N σ) (e : σ'.aux = σ.aux) : Num N σ' := by
  intro k; rw [e]; exact h k

theorem tidy_styled {C : Ctx} {t : Spec.Marked} (h : t.Ok C.U.isLu C.cfg.lite) {tag att : Str} (ht : tag ∈ brTags) (ha : '<' ∉ att) {z r : Str} :
    Spec.tidyBreaks C.cfg.brTag (openTagA tag att ++ (bodyMid C.cfg.brTag t ++ (closeTag tag ++ (z ++ r)))) =
      openTagA tag att ++ (t.html C.cfg.brTag ++ (closeTag tag ++ Spec.tidyBreaks C.cfg.brTag (z ++ r))) := by
  rw [tidyBreaks_free (free_open (brFree_start tag ht).1 rfl ha), tidy_text (t := t) h (by simp [closeTag]),
    tidyBreaks_free (brFree_tags tag ht).2.1]


theorem styled_end (u : Str) (tag : Str) (h : '\n' ∉ tag) : u ++ closeTag tag ≠ [] ∧ (u ++ closeTag tag).getLast? ≠ some '\n' := by
  have e : u ++ closeTag tag = (u ++ (t!"</" ++ tag)) ++ ['>'] := by simp [closeTag]
  rw [e, List.getLast?_concat]
  exact ⟨by simp, by decide⟩

theorem contains_of_not {n s : Str} (h : ¬ n <:+: s) : containsStr n s = false := by
  rw [← Bool.not_eq_true, containsStr_iff]
  rintro ⟨a, b, e⟩
  exact h ⟨a, b, by rw [e]; simp⟩

theorem infix_source {x tag s t : Str} (h : x <:+: s ∨ x <:+: t) : x <:+: tag ++ (s ++ (t!". " ++ t)) := by
  rcases h with ⟨a, b, e⟩ | ⟨a, b, e⟩
  · exact ⟨tag ++ a, b ++ (t!". " ++ t), by rw [← e]; simp⟩
  · exact ⟨tag ++ (s ++ (t!". " ++ a)), b, by rw [← e]; simp⟩

theorem raw_last {ls : List Str} (h : Spec.RawLines ls) (hne : Spec.join t!"\n" ls ≠ []) : (Spec.join t!"\n" ls).getLast? ≠ some '\n' := by
  cases ls with
  | nil => exact absurd rfl hne
  | cons l ls =>
    cases ls with
    | nil => intro e; exact h.1.1 (List.mem_of_getLast? e)
    | cons m ls =>
      have := chunk_lines (ls := m :: ls) (by simp) h.2
      rw [join_cons (by simp), getLast_append_ne this.ne]
      exact this.last

theorem turns_raw {C : Ctx} {tag : Str} {ls : List Str} {a : Spec.Atts} (hu : tag = t!"notextile" → Spec.Untouched ls)
    (ht : tag ∈ [t!"bc", t!"pre", t!"notextile"]) (r : Bool)
    (h1 : '<' ∉ a.html r) (h2 : '<' ∉ a.noLang.html r) (h3 : '<' ∉ Spec.attr t!"class" a.language) :
    Turns (Spec.tidyBreaks C.cfg.brTag) (rawOpen r tag a ++ (rawValue tag (Spec.join t!"\n" ls) ++ rawClose tag))
      (rawOpen r tag a ++ (rawValue tag (Spec.join t!"\n" ls) ++ rawClose tag)) := by
  intro z hz
  have hpre : ∀ {att : Str}, '<' ∉ att → Free t!"<br" (openTagA t!"pre" att) := fun h => free_open (Free.of (by decide)) rfl h
  have hcode : ∀ {att : Str}, '<' ∉ att → Free t!"<br" (openTagA t!"code" att) := fun h => free_open (Free.of (by decide)) rfl h
  simp only [List.mem_cons, List.not_mem_nil, or_false] at ht
  rcases ht with rfl | rfl | rfl
  · simp only [rawOpen, rawClose, rawValue, if_true, List.append_assoc]
    rw [tidyBreaks_free (hpre h2), tidyBreaks_free (hcode h3), if_neg (by decide), tidyBreaks_free (Free.of_head rfl enc_nolt),
      tidyBreaks_free (Free.of (by decide))]
  · simp only [rawOpen, rawClose, rawValue, List.append_assoc, if_true]
    rw [if_neg (by decide), if_neg (by decide), if_neg (by decide),
      tidyBreaks_free (hpre h1), tidyBreaks_free (Free.of_head rfl enc_nolt), tidyBreaks_free (Free.of (by decide))]
  · have hn := (hu rfl).1
    simp only [rawOpen, rawClose, rawValue, List.append_assoc, if_true]
    rw [if_neg (by decide), if_neg (by decide), if_neg (by decide), if_neg (by decide)]
    simp only [List.nil_append]
    refine tidyBreaks_skip ?_
    have key : ∀ k : Str, '\n' ∉ k → k ≠ [] → (∀ l ∈ ls, ¬ k <:+: l) → ∀ u y v, Spec.join ['\n'] ls = u ++ y :: v → ¬ k <+: y :: v ++ z := by
      intro k hk hk' hl u y v e hp
      obtain ⟨x, hx⟩ := prefix_cut hk hz hp
      rw [← hx] at e
      obtain ⟨l, hl', a, b, e'⟩ := infix_join hk' hk e
      exact hl l hl' ⟨a, b, by rw [e']; simp⟩
    intro u y v e
    exact ⟨key _ (by decide) (by simp) (fun l hl => (hn l hl).1) u y v e, key _ (by decide) (by simp) (fun l hl => (hn l hl).2) u y v e⟩

theorem act_node {C : Ctx} {base : Str} (D : DocCtx C base) {ok : Char → Prop} (ha : ∀ c, c.toNat < 128 → ok c)
    {b : Spec.Node} (hL : ∀ k t, b = .piece (.list k t) → Lowers C.U ok) (h : b.Ok C.U.isLu C.U.isNd C.cfg.lite C.cfg.restricted)
    (hc : ∀ c ∈ b.itemChars, ok c)
    (hR : b.Resolved (Spec.Resolves C.E.urlParse C.E.urlJoin C.cfg.restricted) C.cfg.rel)
    (htok : ¬ C.cfg.uid <:+: b.source) (N : Spec.Numbers) {Q : PState → Prop} (hQ : ∀ σ σ', Keeps σ σ' → Q σ → Q σ') :
    Act C (fun σ => Num N σ ∧ Q σ) (fun σ => Num (b.numbers N) σ ∧ Q σ) b.source b.marks (b.html C.cfg.brTag C.cfg.restricted N) := by
  cases b with
  | piece b => exact act_piece D ha (fun k t e => hL k t (by rw [e])) h hc hR htok N hQ
  | styled tag a t =>
    obtain ⟨h1, h2, h3, h4, h5, h6⟩ := h
    obtain ⟨m1, m2⟩ := tagged_mem h5
    have hca : containsStr C.cfg.uid a.source = false := contains_of_not (fun hi => htok (infix_source (.inl hi)))
    have hct : ¬ C.cfg.uid <:+: t.source := fun hi => htok (infix_source (.inr hi))
    obtain ⟨l1, l2⟩ := marked_tagLines h1 h2 (tagged_chars tag m1)
    have hlt : '<' ∉ a.html C.cfg.restricted := (atts_tagText D.plain h2 (by rw [← D.uid]; exact hca) _).nolt
    refine ⟨l1, l2, ?_, ?_⟩
    · intro σ hP hd
      obtain ⟨σ', q, hq⟩ := inline_styled D h2 hca h4 (marked_source D h1 hR hct σ) (marked_begins D.uni h1) m1 m2
        (fun e => notelist_merge D h1 σ (h6 e)) hd
      refine ⟨σ', q, _, hq.step, hq.grow.toGrows, ⟨Num.aux hP.1 hq.aux, hQ _ _ (hq.grow.keeps (by rw [hq.aux])) hP.2⟩, hq.index, hq.rep, hq.nolist, ?_⟩
      intro r hr
      have := tidy_styled (z := []) (r := r) h1 m1 hlt
      simp only [List.nil_append] at this
      simp only [List.append_assoc, this, Spec.Node.html, elementWith_eq]
    · simp only [Spec.Node.html, elementWith_eq]
      rw [← List.append_assoc]
      have := styled_end (openTagA tag (a.html C.cfg.restricted) ++ t.html C.cfg.brTag) tag (tagged_chars tag m1).1
      simpa using this
  | quoted a t =>
    obtain ⟨h1, h2, h3, h4, h6⟩ := h
    have hca : containsStr C.cfg.uid a.source = false := contains_of_not (fun hi => htok (infix_source (.inl hi)))
    have hct : ¬ C.cfg.uid <:+: t.source := fun hi => htok (infix_source (.inr hi))
    obtain ⟨l1, l2⟩ := marked_tagLines h1 h2 (tag := t!"bq") ⟨by decide, by decide, by decide, _, _, rfl, by decide⟩
    have hlt : '<' ∉ a.html C.cfg.restricted := (atts_tagText D.plain h2 (by rw [← D.uid]; exact hca) _).nolt
    refine ⟨l1, l2, ?_, ?_⟩
    · intro σ hP hd
      obtain ⟨σ', q, hq⟩ := inline_styled_quote D h2 hca h4 (marked_source D h1 hR hct σ)
        (notelist_merge D h1 σ h6) hd
      refine ⟨σ', q, _, hq.step, hq.grow.toGrows, ⟨Num.aux hP.1 hq.aux, hQ _ _ (hq.grow.keeps (by rw [hq.aux])) hP.2⟩, hq.index, hq.rep, hq.nolist, ?_⟩
      intro r hr
      simp only [List.append_assoc]
      rw [tidyBreaks_free (free_open (Free.of (by decide)) rfl hlt), tidyBreaks_free (Free.of (by decide)),
        tidy_styled h1 (by decide) hlt, tidyBreaks_free (Free.of (by decide))]
      simp [Spec.Node.html, elementWith_eq, closeTag]
    · have := styled_end (openTagA t!"blockquote" (a.html C.cfg.restricted) ++ (t!"\n\t" ++
        (Spec.elementWith t!"p" (a.html C.cfg.restricted) (t.html C.cfg.brTag) ++ t!"\n"))) t!"blockquote" (by decide)
      rw [List.append_assoc] at this
      simp only [Spec.Node.html]
      rw [elementWith_eq t!"blockquote"]
      exact this
  | verbatim tag a ls =>
    obtain ⟨h1, h2, h3, h4, h5, h6⟩ := h
    obtain ⟨m1, m2⟩ := verbatim_mem h5
    have hca : containsStr C.cfg.uid a.source = false := contains_of_not (fun hi => htok (infix_source (.inl hi)))
    have hct : containsStr C.cfg.uid (Spec.join t!"\n" ls) = false := contains_of_not (fun hi => htok (infix_source (.inr hi)))
    have hcb : containsStr (uidOf base) a.source = false := by rw [← D.uid]; exact hca
    obtain ⟨a1, a2⟩ := atts_nonl h2
    obtain ⟨g1, g2, -, c, u, rfl, hcw⟩ := raw_chars tag m1
    have e : (Spec.Node.verbatim (c :: u) a ls).html C.cfg.brTag C.cfg.restricted N = rawOpen C.cfg.restricted (c :: u) a ++
        (rawValue (c :: u) (Spec.join t!"\n" ls) ++ rawClose (c :: u)) := by
      simp only [Spec.Node.html, rawOpen, rawValue, rawClose, escape_eq]
      split
      · rename_i e; rw [e, if_neg (by decide)]; simp [elementWith_eq, closeTag]
      · split
        · rename_i e; rw [e, if_neg (by decide)]; simp [elementWith_eq, closeTag]
        · rename_i k1 k2
          have : c :: u = t!"notextile" := by simpa [k1, k2] using m1
          rw [if_pos this]; simp
    refine ⟨?_, ⟨c, _, rfl, hcw⟩, ?_, ?_⟩
    · have := lines_prefix (p := (c :: u) ++ (a.source ++ t!". ")) ⟨by simp [a1]; simpa using g1, by simp [a2]; simpa using g2, blank_not hcw⟩ h1
      simpa [Spec.Node.source] using this
    · intro σ hP hd
      obtain ⟨k1, k2⟩ := step_raw D h2 hca h4 m1 m2 σ
      refine ⟨_, _, rawOpen C.cfg.restricted (c :: u) a ++ (rawValue (c :: u) (Spec.join t!"\n" ls) ++ rawClose (c :: u)), k1,
        (Grow.shelved _ _ σ).toGrows, ⟨Num.aux hP.1 (shelved_aux _ _ _), hQ _ _ ((Grow.shelved C.cfg.uid _ σ).keeps (by rw [shelved_aux])) hP.2⟩, by simp [PState.shelved, Spec.Node.marks], ?_, k2, ?_⟩
      · intro τ hτ _
        refine rep_raw D h2 hca m1 hct ?_ ?_
        · intro e
          have := (h6 e).2.2
          by_cases hcol : ':' ∈ Spec.join t!"\n" ls
          · exact .inr ⟨(this hcol).1, (this hcol).2, hct⟩
          · exact .inl hcol
        · rw [(hτ (σ.refIndex + 1) (by simp [PState.shelved])).2]
          exact shelved_lookup _ _ _
      · rw [e]
        exact turns_raw h6 m1 _ (atts_tagText D.plain h2 hcb _).nolt (raw_tagText D.plain h2 hcb _).1.nolt (raw_tagText D.plain h2 hcb C.cfg.restricted).2.nolt
    · rw [e]
      simp only [List.mem_cons, List.not_mem_nil, or_false] at m1
      rcases m1 with m1 | m1 | m1 <;> rw [m1]
      · have := styled_end (rawOpen C.cfg.restricted t!"bc" a ++ (rawValue t!"bc" (Spec.join t!"\n" ls) ++ t!"</code>")) t!"pre" (by decide)
        simpa [rawClose, closeTag] using this
      · have := styled_end (rawOpen C.cfg.restricted t!"pre" a ++ rawValue t!"pre" (Spec.join t!"\n" ls)) t!"pre" (by decide)
        simpa [rawClose, closeTag] using this
      · have k := (h6 m1).2.1
        have := raw_last h1 k
        simp [rawOpen, rawValue, rawClose]
        exact ⟨k, this⟩

/-! ## Documents -/

theorem node_acts {C : Ctx} {base : Str} (D : DocCtx C base) {ok : Char → Prop} (ha : ∀ c, c.toNat < 128 → ok c) :
    ∀ {ds : List (Spec.Node × Nat)} (_ : ds ≠ []) (_ : ∀ d ∈ ds, ∀ k t, d.1 = .piece (.list k t) → Lowers C.U ok)
    (_ : ∀ d ∈ ds, d.1.Ok C.U.isLu C.U.isNd C.cfg.lite C.cfg.restricted) (_ : ∀ d ∈ ds, ∀ c ∈ d.1.itemChars, ok c)
    (_ : ∀ d ∈ ds, d.1.Resolved (Spec.Resolves C.E.urlParse C.E.urlJoin C.cfg.restricted) C.cfg.rel)
    (_ : ∀ d ∈ ds, ¬ C.cfg.uid <:+: d.1.source) (N : Spec.Numbers),
    Acts C (fun σ => Num N σ ∧ True) (ds.map (fun d => (d.1.source, d.2))) (Spec.nodesMarks ds) (Spec.nodeHtml C.cfg.brTag C.cfg.restricted N ds)
  | [], hne, _, _, _, _, _, _ => absurd rfl hne
  | [d], _, hL, h, hc, hR, htok, N => by
    have := Acts.one (k := d.2) (act_node D ha (hL d (by simp)) (h d (by simp)) (hc d (by simp)) (hR d (by simp)) (htok d (by simp)) N (Q := fun _ => True) (fun _ _ _ h => h))
    simpa [Spec.nodesMarks, Spec.nodeHtml] using this
  | d :: e :: ds, _, hL, h, hc, hR, htok, N => by
    have ih := node_acts D ha (ds := e :: ds) (by simp) (fun x hx => hL x (List.mem_cons_of_mem _ hx)) (fun x hx => h x (List.mem_cons_of_mem _ hx))
      (fun x hx => hc x (List.mem_cons_of_mem _ hx)) (fun x hx => hR x (List.mem_cons_of_mem _ hx))
      (fun x hx => htok x (List.mem_cons_of_mem _ hx)) (d.1.numbers N)
    have := Acts.cons (k := d.2) (act_node D ha (hL d (by simp)) (h d (by simp)) (hc d (by simp)) (hR d (by simp)) (htok d (by simp)) N (Q := fun _ => True) (fun _ _ _ h => h)) ih
    simpa [Spec.nodesMarks, Spec.nodeHtml] using this

theorem glue_infix {ps : List (Str × Nat)} {p : Str × Nat} (hp : p ∈ ps) : p.1 <:+: Spec.glue ps := by
  induction ps with
  | nil => cases hp
  | cons e ps ih =>
    obtain ⟨s, k⟩ := e
    rcases List.mem_cons.1 hp with rfl | hp
    · cases ps with
      | nil => exact List.infix_rfl
      | cons q ps => rw [glue_cons (by simp)]; exact (List.prefix_append _ _).isInfix
    · obtain ⟨a, b, e⟩ := ih hp
      rw [glue_cons (by rintro rfl; cases hp)]
      exact ⟨s ++ (nls (k + 2) ++ a), b, by rw [← e]; simp⟩

theorem node_chars (b : Spec.Node) : b.escaped.itemChars = b.itemChars := by
  cases b with
  | piece b => cases b <;> rfl
  | _ => rfl

theorem node_marks (b : Spec.Node) : b.escaped.marks = b.marks := by
  cases b with
  | piece b =>
    cases b with
    | rich b => cases b <;> simp [Spec.Node.escaped, Spec.Node.marks, Spec.Piece.escaped, Spec.Piece.marks, Spec.Rich.escaped, Spec.Rich.body, Spec.Marked.escaped]
    | list k t => rfl
  | _ => simp [Spec.Node.escaped, Spec.Node.marks, Spec.Marked.escaped]

theorem node_list {b : Spec.Node} {k : Spec.ListKind} {t : _} (h : b.escaped = .piece (.list k t)) : b = .piece (.list k t) := by
  cases b with
  | piece b =>
    cases b with
    | rich b => cases h
    | list k t => exact h
  | _ => cases h

theorem node_resolved {R : Str → Str → Prop} {rel : Option Str} {b : Spec.Node} (h : b.Resolved R rel) : b.escaped.Resolved R rel := by
  cases b with
  | piece b =>
    cases b with
    | rich b => exact rich_resolved h
    | list k t => trivial
  | styled tag a t => exact escaped_resolved h
  | quoted a t => exact escaped_resolved h
  | verbatim tag a ls => trivial

theorem parse_nodes {E : Env} {fuel : Nat} {cfg : Cfg} {base : Str} (D : DocCtx ⟨E, cfg, fuel⟩ base)
    (hbt : cfg.blockTags = true) (hsan : cfg.sanitizer = none) (hdep : 1 ≤ cfg.maxSpanDepth) {ok : Char → Prop}
    (ha : ∀ c, c.toNat < 128 → ok c) {ds : List (Spec.Node × Nat)} (hL : ∀ d ∈ ds, ∀ k t, d.1 = .piece (.list k t) → Lowers E.U ok)
    (hne : ds ≠ []) (h : ∀ d ∈ ds, d.1.Ok E.U.isLu E.U.isNd cfg.lite cfg.restricted) (hc : ∀ d ∈ ds, ∀ c ∈ d.1.itemChars, ok c)
    (hR : ∀ d ∈ ds, d.1.Resolved (Spec.Resolves E.urlParse E.urlJoin cfg.restricted) cfg.rel)
    (htok : ¬ cfg.uid <:+: Spec.nodesSource ds) (hn : 2 * Spec.nodesMarks ds < 2 ^ 32) :
    parseFresh E fuel cfg (Spec.nodesSource ds) = .ok (Spec.nodesHtml cfg.brTag cfg.restricted ds) := by
  have key : ∃ es : List (Spec.Node × Nat), Spec.nodesSeen cfg.restricted ds = es ∧
      (if cfg.restricted then encodeHtml (Spec.nodesSource ds) false false else Spec.nodesSource ds) = Spec.nodesSource es ∧ es ≠ [] ∧
      (∀ d ∈ es, ∀ k t, d.1 = .piece (.list k t) → Lowers E.U ok) ∧ (∀ d ∈ es, d.1.Ok E.U.isLu E.U.isNd cfg.lite cfg.restricted) ∧
      (∀ d ∈ es, ∀ c ∈ d.1.itemChars, ok c) ∧
      (∀ d ∈ es, d.1.Resolved (Spec.Resolves E.urlParse E.urlJoin cfg.restricted) cfg.rel) ∧ Spec.nodesMarks es = Spec.nodesMarks ds := by
    refine ⟨_, rfl, ?_⟩
    unfold Spec.nodesSeen
    by_cases hr : cfg.restricted = true
    · rw [if_pos hr, if_pos hr]
      have h' : ∀ d ∈ ds, d.1.Ok E.U.isLu E.U.isNd cfg.lite true := by rw [← hr]; exact h
      have hok := fun d hd => escaped_node (C := ⟨E, cfg, fuel⟩) D.uni (h' d hd)
      refine ⟨?_, by simp [hne], ?_, ?_, ?_, ?_, ?_⟩
      · simp only [Spec.nodesSource, enc_glue, List.map_map]
        congr 1
        apply List.map_congr_left
        intro d hd
        simp only [Function.comp]
        rw [(hok d hd).2]
      · intro d hd k t e
        obtain ⟨x, hx, rfl⟩ := List.mem_map.1 hd
        exact hL x hx k t (node_list e)
      · intro d hd
        obtain ⟨x, hx, rfl⟩ := List.mem_map.1 hd
        rw [hr]; exact (hok x hx).1
      · intro d hd
        obtain ⟨x, hx, rfl⟩ := List.mem_map.1 hd
        rw [node_chars]; exact hc x hx
      · intro d hd
        obtain ⟨x, hx, rfl⟩ := List.mem_map.1 hd
        exact node_resolved (hR x hx)
      · simp only [Spec.nodesMarks, List.map_map]
        congr 1
        apply List.map_congr_left
        intro d _
        exact node_marks d.1
    · rw [if_neg hr, if_neg hr]
      exact ⟨rfl, hne, hL, h, hc, hR, rfl⟩
  obtain ⟨es, e0, e1, e2, e3, e4, e5, e6, e7⟩ := key
  have htok' : containsStr cfg.uid (Spec.nodesSource es) = false := by
    have h0 := contains_of_not htok
    rw [← e1]
    split
    · obtain ⟨c1, c2, -, -, -, -, c7, -⟩ := uid_chars D.plain
      have hu : cfg.uid = uidOf base := D.uid
      rw [hu] at h0 ⊢
      exact containsStr_enc c1 c2 c7 h0
    · exact h0
  rw [Spec.nodesHtml, e0]
  refine parse_acts D hbt hsan hdep (P := fun σ => Num (fun _ => 1) σ ∧ True) ⟨fun _ => rfl, trivial⟩ (node_acts D ha e2 e3 e4 e5 e6 ?_ _) e1 htok (by
    rw [e7]; exact hn)
  rintro d hd ⟨a, b, e⟩
  have := clean_of_infix htok' (glue_infix (ps := es.map (fun d => (d.1.source, d.2))) (p := (d.1.source, d.2)) (List.mem_map.2 ⟨d, hd, rfl⟩))
  rw [containsStr_iff.2 ⟨a, b, by rw [← e]; simp⟩] at this
  cases this

end Rustextile
