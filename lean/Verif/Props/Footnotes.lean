import Verif.FootnoteDoc
import Verif.Props.StyledDocs

/-!
# Footnotes in documents: C37, C56
-/

namespace Rustextile

open Prog

/-- **C56.** A document of paragraphs, headings and paragraphs with attributes, all with any
number of references to footnotes, of footnotes with or without a link back, and of the blocks
of `C55_documents`, in any order. -/
theorem C56_footnotes (E : Env) (hU : UniOk E.U) (fuel : Nat) (hf : 3 ≤ fuel) (cfg : Cfg) (base : Str)
    (hb : Spec.PlainBase base) (huid : cfg.uid = t!"textileRef:" ++ base ++ t!":") (hp : cfg.linkPrefix = base ++ t!"-")
    (hbt : cfg.blockTags = true) (hsan : cfg.sanitizer = none) (hdep : 1 ≤ cfg.maxSpanDepth)
    (ok : Char → Prop) (hL : Lowers E.U ok) (ha : ∀ c, c.toNat < 128 → ok c)
    (ds : List (Spec.FnBlock × Nat)) (hne : ds ≠ []) (hok : ∀ d ∈ ds, d.1.Ok E.U.isLu E.U.isNd cfg.lite cfg.restricted)
    (hc : ∀ d ∈ ds, ∀ c ∈ d.1.itemChars, ok c)
    (hres : ∀ d ∈ ds, d.1.Resolved (Spec.Resolves E.urlParse E.urlJoin cfg.restricted) cfg.rel)
    (htok : ¬ cfg.uid <:+: Spec.fnSource ds)
    (hn : Spec.fnMarks ds < 2 ^ 31) :
    parseFresh E fuel cfg (Spec.fnSource ds) =
      .ok (Spec.fnDocHtml (if cfg.html5 then t!"<br>" else t!"<br />") cfg.restricted base ds) :=
  parse_footnotes (⟨hU, hf, hb, huid⟩ : DocCtx ⟨E, cfg, fuel⟩ base) hp hbt hsan hdep ha (fun _ _ _ _ _ => hL) hne hok hc hres htok (by omega)

/-! ## The numbers of footnotes -/

theorem number_referred (N : Spec.Notes) (l : Str) :
    (N.refer l).number l = some (match N.number l with | some k => k | none => N.last + 1) := by
  unfold Spec.Notes.refer
  cases h : N.number l with
  | some k => simpa using h
  | none => simp [Spec.Notes.number]

theorem number_refer {N : Spec.Notes} {l m : Str} {k : Nat} (h : N.number l = some k) : (N.refer m).number l = some k := by
  unfold Spec.Notes.refer
  cases hm : N.number m with
  | some j => simpa using h
  | none =>
    have : ¬ m = l := fun e => by rw [e, h] at hm; cases hm
    simpa [Spec.Notes.number, this] using h

theorem number_define {N : Spec.Notes} {l m : Str} {k : Nat} (h : N.number l = some k) : (N.define m).number l = some k := by
  unfold Spec.Notes.define
  cases hm : N.number m with
  | some j => simpa using h
  | none => simpa [Spec.Notes.number] using h

theorem number_refs {l : Str} {k : Nat} : ∀ {rs : List (Str × Str)} {N : Spec.Notes}, N.number l = some k →
    (rs.foldl (fun N r => N.refer r.1) N).number l = some k
  | [], _, h => h
  | _ :: rs, _, h => number_refs (rs := rs) (number_refer h)

theorem number_block {l : Str} {k : Nat} {M : Spec.Notes} (h : M.number l = some k) (b : Spec.FnBlock) : (b.notes M).number l = some k := by
  cases b with
  | node b => exact h
  | para t => exact number_refs h
  | styled tag a t => exact number_refs h
  | note m back t => exact number_refs (number_define h)

theorem linkTo_eq (base l : Str) (k : Nat) :
    Spec.elementWith ['a'] (Spec.attr Spec.hrefAttr (some ('#' :: Spec.fnName base k))) l = Spec.linkTo (Spec.fnName base k) l := by
  simp [Spec.elementWith, Spec.attr, Spec.hrefAttr, Spec.linkTo]

theorem infix_element {tag a u x : Str} (h : x <:+: u) : x <:+: Spec.elementWith tag a u := by
  obtain ⟨p, q, e⟩ := h
  exact ⟨'<' :: tag ++ a ++ '>' :: p, q ++ '<' :: '/' :: tag ++ ['>'], by simp [Spec.elementWith, ← e]⟩

theorem refHtml_link (base : Str) (N : Spec.Notes) (l : Str) {k : Nat} (h : (N.refer l).number l = some k) :
    Spec.linkTo (Spec.fnName base k) l <:+: Spec.refHtml base N l := by
  rw [number_referred] at h
  unfold Spec.refHtml
  cases hm : N.number l with
  | some j =>
    rw [hm] at h; simp at h; subst h
    simp only
    rw [linkTo_eq]; exact infix_element List.infix_rfl
  | none =>
    rw [hm] at h; simp at h; subst h
    simp only
    rw [linkTo_eq]; exact infix_element List.infix_rfl

/-- Each reference is a link to the identifier with the number of the footnote. -/
theorem refsHtml_link (br base : Str) {l : Str} {k : Nat} : ∀ {rs : List (Str × Str)} {N : Spec.Notes},
    l ∈ rs.map (·.1) → (rs.foldl (fun N r => N.refer r.1) N).number l = some k → Spec.linkTo (Spec.fnName base k) l <:+: Spec.refsHtml br base N rs
  | [], _, h, _ => by cases h
  | r :: rs, N, h, hk => by
    obtain ⟨m, w⟩ := r
    rw [Spec.refsHtml]
    by_cases e : m = l
    · subst e
      have h1 := number_referred N m
      have h2 := number_refs (rs := rs) h1
      simp only [List.foldl_cons] at hk
      rw [h2] at hk
      rw [hk] at h1
      exact (refHtml_link base N m h1).trans (List.prefix_append _ _).isInfix
    · have hl : l ∈ rs.map (·.1) := by
        rcases List.mem_cons.1 h with h | h
        · exact absurd h.symm e
        · exact h
      exact (refsHtml_link br base hl hk).trans ((List.suffix_append _ _).isInfix.trans (List.suffix_append _ _).isInfix)

theorem number_mem {l : Str} : ∀ {rs : List (Str × Str)} {N : Spec.Notes}, l ∈ rs.map (·.1) →
    ∃ k, (rs.foldl (fun N r => N.refer r.1) N).number l = some k
  | [], _, h => by cases h
  | r :: rs, N, h => by
    rcases List.mem_cons.1 h with h | h
    · subst h
      exact ⟨_, number_refs (rs := rs) (number_referred N r.1)⟩
    · exact number_mem (rs := rs) h

theorem block_link (br base : Str) (restricted : Bool) (N : Spec.Numbers) (M : Spec.Notes) {b : Spec.FnBlock} {l : Str} (h : l ∈ b.labels) :
    ∃ k, (b.notes M).number l = some k ∧ Spec.linkTo (Spec.fnName base k) l <:+: b.html br restricted base N M := by
  cases b with
  | node b => cases h
  | para t =>
    obtain ⟨k, hk⟩ := number_mem (N := M) h
    exact ⟨k, hk, infix_element ((refsHtml_link br base h hk).trans (List.suffix_append _ _).isInfix)⟩
  | styled tag a t =>
    obtain ⟨k, hk⟩ := number_mem (N := M) h
    exact ⟨k, hk, infix_element ((refsHtml_link br base h hk).trans (List.suffix_append _ _).isInfix)⟩
  | note m back t =>
    obtain ⟨k, hk⟩ := number_mem (N := M.define m) h
    exact ⟨k, hk, infix_element (((refsHtml_link br base h hk).trans (List.suffix_append _ _).isInfix).trans
      ((List.suffix_cons _ _).isInfix.trans (List.suffix_append _ _).isInfix))⟩

theorem note_start (br base : Str) (restricted : Bool) (N : Spec.Numbers) (M : Spec.Notes) {l : Str} {k : Nat} (h : M.number l = some k)
    (back : Bool) (t : Spec.FnText) : Spec.noteStart (Spec.fnName base k) <+: (Spec.FnBlock.note l back t).html br restricted base N M := by
  simp only [Spec.FnBlock.html, Spec.Notes.ofNote, h]
  simp only [Spec.elementWith, Spec.attr, Spec.classAttr, Spec.idAttr, Spec.footnoteWord, Spec.noteStart]
  exact ⟨_, by simp only [List.cons_append, List.append_assoc, List.nil_append]; rfl⟩

/-! ## References before the footnote -/

theorem glue_in {p : Str × Nat} : ∀ {as bs : List (Str × Nat)}, ∃ A B, Spec.glue (as ++ p :: bs) = A ++ (p.1 ++ B) ∧ (bs ≠ [] → ∃ w, B = w ++ Spec.glue bs)
  | [], [] => ⟨[], [], by simp [Spec.glue], fun h => absurd rfl h⟩
  | [], q :: bs => ⟨[], nls (p.2 + 2) ++ Spec.glue (q :: bs), by rw [List.nil_append, glue_cons (by simp)]; rfl, fun _ => ⟨_, rfl⟩⟩
  | a :: as, bs => by
    obtain ⟨A, B, e, h⟩ := glue_in (p := p) (as := as) (bs := bs)
    refine ⟨a.1 ++ (nls (a.2 + 2) ++ A), B, ?_, h⟩
    rw [List.cons_append, glue_cons (by simp), e]; simp

theorem fnHtml_append (br base : Str) (restricted : Bool) : ∀ (ds es : List (Spec.FnBlock × Nat)) (N : Spec.Numbers) (M : Spec.Notes),
    Spec.fnHtml br restricted base N M (ds ++ es) =
      Spec.fnHtml br restricted base N M ds ++
        Spec.fnHtml br restricted base (ds.foldl (fun N d => d.1.numbers N) N) (ds.foldl (fun M d => d.1.notes M) M) es
  | [], _, _, _ => rfl
  | d :: ds, es, N, M => by simp [Spec.fnHtml, fnHtml_append br base restricted ds es]

theorem number_blocks {l : Str} {k : Nat} : ∀ (ds : List (Spec.FnBlock × Nat)) {M : Spec.Notes}, M.number l = some k →
    (ds.foldl (fun M d => d.1.notes M) M).number l = some k
  | [], _, h => h
  | d :: ds, _, h => number_blocks ds (number_block h d.1)

theorem labels_escaped {b : Spec.FnBlock} : b.escaped.labels = b.labels := by cases b <;> rfl

theorem fnHtml_pair (br base : Str) (restricted : Bool) (N : Spec.Numbers) (M : Spec.Notes) (ds es fs : List (Spec.FnBlock × Nat)) (b : Spec.FnBlock)
    (i j : Nat) (l : Str) (back : Bool) (t : Spec.FnText) (h : l ∈ b.labels) :
    ∃ k A B D, Spec.glue (Spec.fnHtml br restricted base N M (ds ++ (b, i) :: (es ++ (.note l back t, j) :: fs))) =
      A ++ Spec.linkTo (Spec.fnName base k) l ++ B ++ Spec.noteStart (Spec.fnName base k) ++ D := by
  rw [fnHtml_append, Spec.fnHtml, fnHtml_append, Spec.fnHtml]
  generalize hN : ds.foldl (fun N d => d.1.numbers N) N = N1
  generalize hM : ds.foldl (fun M d => d.1.notes M) M = M1
  obtain ⟨k, hk, p, q, e⟩ := block_link br base restricted N1 M1 h
  simp only
  have hk2 := number_blocks es hk
  generalize es.foldl (fun N d => d.1.numbers N) (b.numbers N1) = N2
  generalize es.foldl (fun M d => d.1.notes M) (b.notes M1) = M2 at hk2 ⊢
  obtain ⟨q', e'⟩ := note_start br base restricted N2 M2 hk2 back t
  obtain ⟨A, B, g1, g2⟩ := glue_in (p := (b.html br restricted base N1 M1, i)) (as := Spec.fnHtml br restricted base N M ds)
    (bs := Spec.fnHtml br restricted base (b.numbers N1) (b.notes M1) es ++
      (Spec.FnBlock.html br restricted base N2 M2 (.note l back t), j) ::
        Spec.fnHtml br restricted base (Spec.FnBlock.numbers N2 (.note l back t)) (Spec.FnBlock.notes M2 (.note l back t)) fs)
  obtain ⟨w, hw⟩ := g2 (by simp)
  obtain ⟨A2, B2, g3, -⟩ := glue_in (p := (Spec.FnBlock.html br restricted base N2 M2 (.note l back t), j))
    (as := Spec.fnHtml br restricted base (b.numbers N1) (b.notes M1) es)
    (bs := Spec.fnHtml br restricted base (Spec.FnBlock.numbers N2 (.note l back t)) (Spec.FnBlock.notes M2 (.note l back t)) fs)
  refine ⟨k, A ++ p, q ++ (w ++ A2), q' ++ B2, ?_⟩
  rw [g1, hw, g3]
  simp only
  rw [← e, ← e']
  simp

/-- **C37, partial.** In the documents of `C56_footnotes`, if a block refers to a footnote and the
footnote comes later, then the link of the reference points at the identifier of the
footnote. -/
theorem C37_reference_first_partial (E : Env) (hU : UniOk E.U) (fuel : Nat) (hf : 3 ≤ fuel) (cfg : Cfg) (base : Str)
    (hb : Spec.PlainBase base) (huid : cfg.uid = t!"textileRef:" ++ base ++ t!":") (hp : cfg.linkPrefix = base ++ t!"-")
    (hbt : cfg.blockTags = true) (hsan : cfg.sanitizer = none) (hdep : 1 ≤ cfg.maxSpanDepth)
    (ok : Char → Prop) (hL : Lowers E.U ok) (ha : ∀ c, c.toNat < 128 → ok c)
    (ds es fs : List (Spec.FnBlock × Nat)) (b : Spec.FnBlock) (i j : Nat) (l : Str) (back : Bool) (t : Spec.FnText) (hl : l ∈ b.labels)
    (all : List (Spec.FnBlock × Nat)) (hall : all = ds ++ (b, i) :: (es ++ (.note l back t, j) :: fs))
    (hok : ∀ d ∈ all, d.1.Ok E.U.isLu E.U.isNd cfg.lite cfg.restricted)
    (hc : ∀ d ∈ all, ∀ c ∈ d.1.itemChars, ok c)
    (hres : ∀ d ∈ all, d.1.Resolved (Spec.Resolves E.urlParse E.urlJoin cfg.restricted) cfg.rel)
    (htok : ¬ cfg.uid <:+: Spec.fnSource all)
    (hn : Spec.fnMarks all < 2 ^ 31) :
    ∃ name A B D, parseFresh E fuel cfg (Spec.fnSource all) = .ok (A ++ Spec.linkTo name l ++ B ++ Spec.noteStart name ++ D) := by
  have h := C56_footnotes E hU fuel hf cfg base hb huid hp hbt hsan hdep ok hL ha all (by rw [hall]; simp) hok hc hres htok hn
  generalize (if cfg.html5 then t!"<br>" else t!"<br />") = br at h
  have key : ∃ k A B D, Spec.fnDocHtml br cfg.restricted base all = A ++ Spec.linkTo (Spec.fnName base k) l ++ B ++ Spec.noteStart (Spec.fnName base k) ++ D := by
    unfold Spec.fnDocHtml Spec.fnSeen
    rw [hall]
    split
    · simp only [List.map_append, List.map_cons]
      exact fnHtml_pair br base _ _ _ _ _ _ _ _ _ _ _ _ (by rw [labels_escaped]; exact hl)
    · exact fnHtml_pair br base _ _ _ _ _ _ _ _ _ _ _ _ hl
  obtain ⟨k, A, B, D, e⟩ := key
  exact ⟨_, A, B, D, by rw [h, e]⟩

/-! ## Example -/

def demoFn : List (Spec.FnBlock × Nat) := [
  (.para ⟨t!"Some words", [(t!"2", t!" and more"), (t!"1", t!".\nAgain"), (t!"2", [])]⟩, 0),
  (.node (.piece (.list .bullets (.item t!"dot" .bullets .done .done))), 0),
  (.styled t!"h2" { align := some .center, groups := [] } ⟨t!"Title", [(t!"3", [])]⟩, 1),
  (.note t!"1" true ⟨t!"The first.", []⟩, 0),
  (.note t!"2" false ⟨t!"See", [(t!"1", t!" too.")]⟩, 0)]

theorem noBlockStart_head {dig : Char → Bool} {lite : Bool} {c : Char} {t : Str} (h : c ∉ t!"bnp#hf") : Spec.NoBlockStart dig lite (c :: t) := by
  intro w x u e _ hw
  cases w with
  | nil =>
    refine noBlock_head (dig := dig) (lite := lite) (t := []) (c := c) h [] [] ?_ hw
    cases lite
    · rcases hw with hw | ⟨d, ds, hw, -⟩ <;> simp at hw
    · exact absurd hw (by simp [Spec.blockWord, Spec.liteWord])
  | cons y w =>
    obtain ⟨rfl, -⟩ : c = y ∧ _ := by simpa using e
    exact noBlock_head (dig := dig) (lite := lite) (t := w ++ ['.']) h (c :: w) [] rfl hw

theorem demoFn_ok : ∀ d ∈ demoFn, d.1.Ok demoUni.isLu demoUni.isNd false demoCfg.restricted := by
  have ends : ∀ p : Str, p.getLast? ≠ some ' ' → p.getLast? ≠ some '\n' → ¬ Spec.EndsInSpace p := by
    rintro p h1 h2 ⟨u, c, rfl, h⟩
    rw [List.getLast?_concat] at h1 h2
    rcases h with rfl | rfl
    · exact h1 rfl
    · exact h2 rfl
  intro d hd
  simp only [demoFn, List.mem_cons, List.not_mem_nil, or_false] at hd
  rcases hd with rfl | rfl | rfl | rfl | rfl
  · refine ⟨⟨?_, ⟨_, _, rfl, by decide, by decide⟩, by decide⟩, ?_, by decide⟩
    · intro p hp
      simp only [Spec.FnText.texts, List.map_cons, List.map_nil, List.mem_cons, List.not_mem_nil, or_false] at hp
      rcases hp with rfl | rfl | rfl | rfl
      · exact ⟨prose_of_B (by decide), ends _ (by decide) (by decide)⟩
      · exact ⟨prose_of_B (by decide), ends _ (by decide) (by decide)⟩
      · exact ⟨prose_of_B (by decide), ends _ (by decide) (by decide)⟩
      · exact ⟨prose_of_B (by decide), ends _ (by decide) (by decide)⟩
    · exact noBlockStart_head (by decide)
  · refine ⟨rfl, trivial, by simp, itemText_of_B (by decide +kernel) (by decide +kernel) (by decide +kernel), trivial, trivial, trivial⟩
  · refine ⟨⟨?_, ⟨_, _, rfl, by decide, by decide⟩, by decide⟩, ⟨by simp, by simp⟩, fun _ => trivial, rfl, by decide, by decide⟩
    intro p hp
    simp only [Spec.FnText.texts, List.map_cons, List.map_nil, List.mem_cons, List.not_mem_nil, or_false] at hp
    rcases hp with rfl | rfl
    · exact ⟨prose_of_B (by decide), ends _ (by decide) (by decide)⟩
    · exact ⟨prose_of_B (by decide), ends _ (by decide) (by decide)⟩
  · refine ⟨⟨?_, ⟨_, _, rfl, by decide, by decide⟩, by decide⟩, by decide, by decide, rfl⟩
    intro p hp
    simp only [Spec.FnText.texts, List.map_nil, List.mem_cons, List.not_mem_nil, or_false] at hp
    subst hp
    exact ⟨prose_of_B (by decide), ends _ (by decide) (by decide)⟩
  · refine ⟨⟨?_, ⟨_, _, rfl, by decide, by decide⟩, by decide⟩, by decide, by decide, rfl⟩
    intro p hp
    simp only [Spec.FnText.texts, List.map_cons, List.map_nil, List.mem_cons, List.not_mem_nil, or_false] at hp
    rcases hp with rfl | rfl
    · exact ⟨prose_of_B (by decide), ends _ (by decide) (by decide)⟩
    · exact ⟨prose_of_B (by decide), ends _ (by decide) (by decide)⟩

theorem demoFn_resolved (R : Str → Str → Prop) : ∀ d ∈ demoFn, d.1.Resolved R none := by
  simp [demoFn, Spec.FnBlock.Resolved, Spec.Node.Resolved, Spec.Piece.Resolved]

example : parseFresh demoEnv 3 demoCfg
    t!"Some words[2] and more[1].\nAgain[2]\n\n* dot\n\nh2=. Title[3]\n\n\nfn1^. The first.\n\nfn2. See[1] too." =
    .ok t!"<p>Some words<sup class=\"footnote\" id=\"fnrevabc-1\"><a href=\"#fnabc-1\">2</a></sup> and more<sup class=\"footnote\" id=\"fnrevabc-2\"><a href=\"#fnabc-2\">1</a></sup>.<br>\nAgain<sup class=\"footnote\"><a href=\"#fnabc-1\">2</a></sup></p>\n\n<ul>\n\t<li>dot</li>\n</ul>\n\n<h2 style=\"text-align:center;\">Title<sup class=\"footnote\" id=\"fnrevabc-3\"><a href=\"#fnabc-3\">3</a></sup></h2>\n\n\n<p class=\"footnote\" id=\"fnabc-2\"><sup><a href=\"#fnrevabc-2\">1</a></sup> The first.</p>\n\n<p class=\"footnote\" id=\"fnabc-1\"><sup>2</sup> See<sup class=\"footnote\"><a href=\"#fnabc-2\">1</a></sup> too.</p>" := by
  have := C56_footnotes demoEnv UniOk.demo 3 (by decide) demoCfg t!"abc" plainBase_demo rfl rfl rfl rfl (by decide)
    _ demo_lowers (fun _ h => h) demoFn (by decide) demoFn_ok (by decide +kernel) (demoFn_resolved _) (by decide +kernel) (by decide)
  refine Eq.trans (Eq.trans ?_ this) ?_ <;> exact congrArg _ (by decide +kernel)

example : ∃ name A B D, parseFresh demoEnv 3 demoCfg (Spec.fnSource demoFn) = .ok (A ++ Spec.linkTo name t!"1" ++ B ++ Spec.noteStart name ++ D) :=
  C37_reference_first_partial demoEnv UniOk.demo 3 (by decide) demoCfg t!"abc" plainBase_demo rfl rfl rfl rfl (by decide)
    _ demo_lowers (fun _ h => h) [] [demoFn[1], demoFn[2]] [demoFn[4]] _ _ _ _ _ _ (by decide) demoFn rfl demoFn_ok (by decide +kernel) (demoFn_resolved _)
    (by decide +kernel) (by decide)

end Rustextile
