import Verif.ListGraf
import Verif.Props.Glyphs

/-!
# Paragraphs that are lists
-/

namespace Rustextile

open Prog

/-! ## Characters -/

/-- Sources of lists. -/
def srcA : Alpha := ⟨asciiAlnum ++ t!" ,./$\n*#_", true⟩

/-- HTML of lists. -/
def htmlA : Alpha := ⟨asciiAlnum ++ t!" ,./$\n<>\t=\"", true⟩

/-- Texts between the tags of a list. -/
def textA : Alpha := ⟨asciiAlnum ++ t!" ,./$\n\t", true⟩

theorem srcA_wf : srcA.wf = true := by decide
theorem htmlA_wf : htmlA.wf = true := by decide
theorem textA_wf : textA.wf = true := by decide

theorem src_early : earlyPatterns.all (·.need srcA) = true := by decide +kernel
theorem src_need : [TABLE_RE, RCLIST_RE, DIVIDER_RE].all (·.need srcA) = true := by decide +kernel
theorem html_need : ([FOOTNOTE_RE, NOTEREF_RE] ++ spanPatterns).all (·.need htmlA) = true := by decide +kernel
theorem text_glyph : glyphPatterns.all (fun r =>
    r.need textA || r == DYN_3PLUS_RE || r == GL_DIM_RE || r == GL_ELLIPSIS_RE) = true := by decide +kernel

/-! ## Texts and tags -/

/-- A text between tags. -/
def Plainly (U : Uni) (w : Str) : Prop := textA.Over w ∧ Good U w

theorem neutral_nl {U : Uni} (hU : UniOk U) : Neutral U '\n' ∧ Neutral U '\t' := by
  refine ⟨⟨?_, by decide, by decide⟩, ⟨?_, by decide, by decide⟩⟩ <;> rw [hU.upper _ (by decide)] <;> decide

theorem Plainly.nil {U : Uni} : Plainly U [] := by
  refine ⟨fun c hc => (by cases hc), ?_⟩
  rw [good_iff]
  exact ⟨by simp, by simp, by simp⟩

theorem good_tabs {U : Uni} (hU : UniOk U) : ∀ n, Good U (Spec.tabs n)
  | 0 => (Plainly.nil (U := U)).2
  | n + 1 => Good.cons (neutral_nl hU).2 (good_tabs hU n)

theorem Plainly.line {U : Uni} (hU : UniOk U) {w : Str} (h : Plainly U w) (n : Nat) : Plainly U (w ++ (t!"\n" ++ Spec.tabs n)) := by
  refine ⟨?_, Good.sep h.2 (neutral_nl hU).1 (good_tabs hU n)⟩
  rw [Alpha.Over.append, Alpha.Over.append]
  refine ⟨h.1, fun c hc => .inl ((by decide : ∀ c ∈ t!"\n", c ∈ textA.ascii) c hc), fun c hc => .inl ?_⟩
  rw [List.eq_of_mem_replicate hc]; decide

/-- The tags of lists and tables. -/
def ListTag (g : Str) : Prop := ∃ x b, g = '<' :: x :: (b ++ ['>']) ∧ x ∈ t!"uoltdc/" ∧ '<' ∉ b ∧ '>' ∉ b ∧ '\n' ∉ b ∧ ¬ ['f', ':'] <:+: b

theorem infix_colon {b : Str} (h : ':' ∉ b) : ¬ ['f', ':'] <:+: b := fun hi => h (hi.subset (by simp))

/-- Texts and tags in turn. -/
inductive Pieces (U : Uni) : Str → Prop
  | last {w : Str} : Plainly U w → Pieces U w
  | tag {w g r : Str} : Plainly U w → ListTag g → Pieces U r → Pieces U (w ++ (g ++ r))

theorem Pieces.line {U : Uni} (hU : UniOk U) {w g r : Str} (hw : Plainly U w) (n : Nat) (hg : ListTag g) (hr : Pieces U r) :
    Pieces U (w ++ (t!"\n" ++ (Spec.tabs n ++ (g ++ r)))) := by
  have := Pieces.tag (hw.line hU n) hg hr
  simpa using this

theorem attr_none {k : Spec.ListKind} {n : Nat} : '>' ∉ k.attr n ∧ ':' ∉ k.attr n := by
  have : ∀ c, isDigitC c = false → c ∉ Spec.numeral n := by
    intro c hc h
    rw [natStr_numeral] at h; have := natStr_digits n _ h; rw [hc] at this; cases this
  have h1 := this '>' (by decide)
  have h2 := this ':' (by decide)
  cases k <;> simp [Spec.ListKind.attr, h1, h2]

theorem open_tag {k : Spec.ListKind} {n : Nat} : ListTag (t!"<" ++ k.name ++ k.attr n ++ t!">") := by
  obtain ⟨h1, h2⟩ := attr_none (k := k) (n := n)
  have h3 := attr_nonl (k := k) (n := n)
  have h4 := attr_nolt (k := k) (n := n)
  by_cases ho : k.ordered = true
  · exact ⟨'o', 'l' :: k.attr n, by simp [Spec.ListKind.name, ho], by decide, by simp [h4], by simp [h1], by simp [h3], infix_colon (by simp [h2])⟩
  · exact ⟨'u', 'l' :: k.attr n, by simp [Spec.ListKind.name, ho], by decide, by simp [h4], by simp [h1], by simp [h3], infix_colon (by simp [h2])⟩

theorem close_tag {k : Spec.ListKind} : ListTag (t!"</" ++ k.name ++ t!">") := by
  by_cases ho : k.ordered = true
  · exact ⟨'/', t!"ol", by simp [Spec.ListKind.name, ho], by decide, by decide, by decide, by decide, infix_colon (by decide)⟩
  · exact ⟨'/', t!"ul", by simp [Spec.ListKind.name, ho], by decide, by decide, by decide, by decide, infix_colon (by decide)⟩

theorem item_tags : ListTag t!"<li>" ∧ ListTag t!"</li>" :=
  ⟨⟨'l', t!"i", rfl, by decide, by decide, by decide, by decide, infix_colon (by decide)⟩,
    ⟨'/', t!"li", rfl, by decide, by decide, by decide, by decide, infix_colon (by decide)⟩⟩

theorem html_pieces {U : Uni} (hU : UniOk U) : ∀ {t : Spec.Items} {o : Bool} {m : Str} {N : Spec.Numbers} {w z : Str}, Plainly U w →
    AllTexts (Plainly U) t → (∀ w', Plainly U w' → Pieces U (w' ++ z)) → Pieces U (w ++ ((t.html o m N).1 ++ z))
  | .done, o, m, N, w, z, hw, _, hz => by simpa [Spec.Items.html] using hz w hw
  | .item a k sub next, o, m, N, w, z, hw, h, hz => by
    obtain ⟨h1, h2, h3⟩ := h
    simp only [Spec.Items.html]
    have hn : ∀ N, Pieces U ((next.html o m N).1 ++ z) := fun N => by
      simpa using html_pieces hU (w := []) Plainly.nil h3 hz
    by_cases hs : sub.isDone = true
    · simp only [hs, if_true]
      have := Pieces.tag (hw.line hU m.length) item_tags.1 (Pieces.tag h1 item_tags.2 (hn (sub.html k.ordered (m ++ [k.mark])
        (if o then N.set m (N m + 1) else N)).2))
      simpa using this
    · simp only [hs, if_false, Bool.false_eq_true]
      have h4 := fun N => html_pieces hU (t := sub) (o := k.ordered) (m := m ++ [k.mark]) (N := N) (w := []) Plainly.nil h2
        (fun w' hw' => Pieces.line hU hw' (sub.lastDepth (m.length + 1) (m.length + 1) - 1) (close_tag (k := k))
          (Pieces.tag Plainly.nil item_tags.2 (hn (sub.html k.ordered (m ++ [k.mark]) N).2)))
      generalize hN : k.start (m ++ [k.mark]) (if o then N.set m (N m + 1) else N) = N'
      have := Pieces.tag (hw.line hU m.length) item_tags.1 (Pieces.tag (h1.line hU (m.length + 1 - 1))
        (open_tag (k := k) (n := N' (m ++ [k.mark]))) (h4 N'))
      simpa [Spec.ListKind.around] using this

theorem list_pieces {U : Uni} (hU : UniOk U) {k : Spec.ListKind} {t : Spec.Items} {N : Spec.Numbers} (h : AllTexts (Plainly U) t) :
    Pieces U (Spec.listHtml k t N) := by
  have h4 := html_pieces hU (t := t) (o := k.ordered) (m := [k.mark]) (N := k.start [k.mark] N) (w := []) Plainly.nil h
    (fun w' hw' => Pieces.line hU hw' (t.lastDepth 1 1 - 1) (close_tag (k := k)) (Pieces.last Plainly.nil))
  have := Pieces.tag (w := []) Plainly.nil (open_tag (k := k) (n := k.start [k.mark] N [k.mark])) h4
  simpa [Spec.listHtml, Spec.ListKind.around, Spec.tabs] using this

/-! ## What is not found in the HTML of a list -/

theorem textA_none {w : Str} (h : textA.Over w) : '<' ∉ w ∧ '>' ∉ w ∧ ':' ∉ w ∧ ∀ c ∈ w, c ∉ t!"])'\"" := by
  refine ⟨fun hc => Alpha.not_mem (by decide) (by decide) (h _ hc), fun hc => Alpha.not_mem (by decide) (by decide) (h _ hc),
    fun hc => Alpha.not_mem (by decide) (by decide) (h _ hc), ?_⟩
  intro c hc hm
  have : ∀ c ∈ t!"])'\"", c ∉ textA.ascii ∧ c.toNat < 128 := by decide
  exact Alpha.not_mem (this c hm).1 (this c hm).2 (h _ hc)

theorem Plainly.glyph {C : Ctx} (hU : UniOk C.U) {w : Str} (h : Plainly C.U w) : glyphText C w = w := by
  obtain ⟨n1, n2, -, n4⟩ := textA_none h.1
  obtain ⟨g1, g2, g3⟩ := good_iff.1 h.2
  refine glyphText_none ?_ n1 n2
  intro r hr
  have := List.all_eq_true.1 text_glyph r hr
  simp only [Bool.or_eq_true, beq_iff_eq] at this
  rcases this with ((h1 | rfl) | rfl) | rfl
  · exact Re.need_search hU textA_wf h1 h.1 []
  · exact caps_none g1 []
  · exact dim_none n4 g3 []
  · exact ellipsis_none g2 []

theorem ListTag.tag {U : Uni} (hU : UniOk U) {g : Str} (h : ListTag g) : Spec.Tag U.isWord g := by
  obtain ⟨x, b, rfl, hx, -, h1, h2, -⟩ := h
  refine ⟨x, b, rfl, ?_, h1, h2⟩
  simp only [List.mem_cons, List.not_mem_nil, or_false] at hx
  rcases hx with rfl | rfl | rfl | rfl | rfl | rfl | rfl
  · left; rw [hU.word _ (by decide)]; decide
  · left; rw [hU.word _ (by decide)]; decide
  · left; rw [hU.word _ (by decide)]; decide
  · left; rw [hU.word _ (by decide)]; decide
  · left; rw [hU.word _ (by decide)]; decide
  · left; rw [hU.word _ (by decide)]; decide
  · right; decide

theorem tag_unique {word : Char → Bool} {g g' r r' : Str} (h : Spec.Tag word g) (h' : Spec.Tag word g') (e : g ++ r = g' ++ r') : g = g' := by
  obtain ⟨x, b, rfl, -, h1, -⟩ := h
  obtain ⟨y, b', rfl, -, h2, -⟩ := h'
  simp only [List.cons_append, List.append_assoc, List.nil_append, List.cons.injEq, true_and] at e
  obtain ⟨rfl, e⟩ := e
  have : b = b' := by
    rw [List.append_eq_append_iff] at e
    rcases e with ⟨z, e1, e2⟩ | ⟨z, e1, e2⟩
    · cases z with
      | nil => simpa using e1.symm
      | cons c z => simp at e2; exfalso; apply h2; rw [e1, ← e2.1]; simp
    · cases z with
      | nil => simpa using e1
      | cons c z => simp at e2; exfalso; apply h1; rw [e1, ← e2.1]; simp
  rw [this]

theorem glyph_lt {U : Uni} {pre t : Str} (h : t.head? ≠ some '<') : GLYPH_SPLIT_RE.matchAt U ⟨pre, t⟩ = none := by
  rcases glyph_at U pre t with ⟨g, r, rfl, ⟨x, b, rfl, -⟩, -⟩ | ⟨-, h⟩
  · simp at h
  · exact h

theorem glyph_skips {U : Uni} {rest : Str} : ∀ {w pre : Str}, '<' ∉ w → Skips U GLYPH_SPLIT_RE pre w rest
  | [], pre, _ => Skips.nil
  | x :: w, pre, h => by
    simp only [List.mem_cons, not_or] at h
    exact Skips.cons (glyph_lt (by simpa using fun e => h.1 e.symm)) (glyph_skips h.2)

theorem glyph_search {U : Uni} {w pre : Str} (h : '<' ∉ w) : GLYPH_SPLIT_RE.search U pre w = none := by
  rw [Re.search_none_iff]
  rintro u c ⟨h1, h2⟩
  rcases c with ⟨p, r⟩
  refine glyph_lt fun e => h ?_
  simp only at h1 e
  rw [h1]
  cases r with
  | nil => simp at e
  | cons x r => simp at e; rw [e]; simp

theorem Pieces.segs {C : Ctx} (hU : UniOk C.U) {t : Str} (h : Pieces C.U t) : ∀ pre, ∃ ms tail, Segs C.U GLYPH_SPLIT_RE pre t ms tail ∧
    (ms.map (fun m => (m.gap, m.whole))).flatMap (fun p => glyphText C p.1 ++ p.2) ++ glyphText C tail = t := by
  induction h with
  | @last w h => exact fun pre => ⟨[], w, .done (glyph_search (textA_none h.1).1), by simpa using h.glyph hU⟩
  | @tag w g r h hg _ ih =>
    intro pre
    have ht := hg.tag hU
    rcases glyph_at C.U (w.reverse ++ pre) (g ++ r) with ⟨g', r', e, hg', hm⟩ | ⟨hn, -⟩
    · have := tag_unique ht hg' e
      subst this
      obtain rfl : r = r' := List.append_cancel_left e
      obtain ⟨ms, tail, h1, h2⟩ := ih (g.reverse ++ (w.reverse ++ pre))
      refine ⟨_, _, .hit (glyph_skips (textA_none h.1).1) hm (Tag.ne ht) h1, ?_⟩
      simp only [List.map_cons, List.flatMap_cons, h.glyph hU, List.append_assoc, h2]
    · exact absurd ht (hn g r rfl)

theorem Pieces.glyphs {C : Ctx} (hU : UniOk C.U) {t n : Str} (h : Pieces C.U t) (hl : ∀ c, t.getLast? = some c → c ≠ '\n')
    (hn : ∀ c ∈ n, c = '\n') : glyphs C (t ++ n) = t := by
  obtain ⟨ms, tail, h1, h2⟩ := h.segs hU []
  unfold Rustextile.glyphs
  rw [trimNl_append hl hn]
  have h3 := cut_of_segs h1
  unfold Re.split
  rw [Re.matches_of_Segs h1]
  simp only
  rw [glyphPieces_eq C tail ms h3.2, h2]

theorem ListTag.free {g n : Str} {y : Char} (h : ListTag g) (hy : y ∉ t!"uoltdc/") : Free ('<' :: y :: n) g := by
  obtain ⟨x, b, rfl, hx, h1, -⟩ := h
  intro u v e hv
  have hne : x ≠ y := by rintro rfl; exact hy hx
  cases u with
  | nil =>
    simp only [List.nil_append] at e
    subst e
    refine ⟨?_, ?_⟩ <;> rintro ⟨z, e⟩ <;> simp at e
    · exact hne e.1
    · exact hne e.1.symm
  | cons c u =>
    have hlt : '<' ∉ v := by
      simp only [List.cons_append, List.cons.injEq] at e
      have hx' : x ≠ '<' := by rintro rfl; revert hx; decide
      intro hm
      have : '<' ∈ x :: (b ++ ['>']) := by rw [e.2]; simp [hm]
      simp [h1, hx'.symm] at this
    cases v with
    | nil => exact absurd rfl hv
    | cons d v =>
      simp at hlt
      refine ⟨?_, ?_⟩ <;> rintro ⟨z, e⟩ <;> simp at e
      · exact hlt.1 e.1.symm
      · exact hlt.1 e.1

theorem Pieces.free {U : Uni} {t n : Str} {y : Char} (h : Pieces U t) (hy : y ∉ t!"uoltdc/") : Free ('<' :: y :: n) t := by
  induction h with
  | last h => exact .of_head rfl (textA_none h.1).1
  | tag h hg _ ih => exact (Free.of_head rfl (textA_none h.1).1).append ((hg.free hy).append ih)

theorem Pieces.brFree {U : Uni} {t : Str} (h : Pieces U t) : BrFree t :=
  ⟨h.free (by decide), h.free (by decide), h.free (by decide), h.free (by decide)⟩

theorem noPTag_free : ∀ {t : Str}, Free t!"<p" t → Free t!"<h" t → noPTag t = true
  | [], _, _ => rfl
  | c :: t, h1, h2 => by
    have g1 := h1 [] (c :: t) rfl (by simp)
    have g2 := h2 [] (c :: t) rfl (by simp)
    have ih := noPTag_free (t := t) (fun u v e hv => h1 (c :: u) v (by simp [e]) hv) (fun u v e hv => h2 (c :: u) v (by simp [e]) hv)
    unfold noPTag
    split
    · rename_i u e
      exact absurd ⟨u, e⟩ g1.1
    · rename_i u e
      exact absurd ⟨u, e⟩ g2.1
    · rename_i e; cases e; exact ih
    · rfl

/-! ## The block -/

/-- A match is among those found. -/
def Has (U : Uni) (r : Re) (pre w rest : Str) : Prop := ∀ s, ∃ s', (⟨w.reverse ++ pre, rest⟩, s') ∈ r.all U ⟨pre, w ++ rest⟩ s

theorem Has.seq {U : Uni} {a b : Re} {pre u v rest : Str} (h : Has U a pre u (v ++ rest)) (h' : Has U b (u.reverse ++ pre) v rest) :
    Has U (.seq a b) pre (u ++ v) rest := by
  intro s
  obtain ⟨s1, h1⟩ := h s
  obtain ⟨s2, h2⟩ := h' s1
  refine ⟨s2, ?_⟩
  rw [all_seq, List.mem_flatMap]
  refine ⟨_, by rw [List.append_assoc]; exact h1, ?_⟩
  simpa using h2

theorem Has.left {U : Uni} {a b : Re} {pre w rest : Str} (h : Has U a pre w rest) : Has U (.alt a b) pre w rest := by
  intro s
  obtain ⟨s1, h1⟩ := h s
  exact ⟨s1, by simp [Re.all, h1]⟩

theorem Has.right {U : Uni} {a b : Re} {pre w rest : Str} (h : Has U b pre w rest) : Has U (.alt a b) pre w rest := by
  intro s
  obtain ⟨s1, h1⟩ := h s
  exact ⟨s1, by simp [Re.all, h1]⟩

theorem Has.set {U : Uni} {n : Bool} {it : List Item} {pre rest : Str} {c : Char} (h : evalSet U n it c = true) :
    Has U (.set n it) pre [c] rest := fun s => ⟨s, by simp [Re.all, h]⟩

theorem Has.eps {U : Uni} {pre rest : Str} : Has U .eps pre [] rest := fun s => ⟨s, by simp [Re.all]⟩

theorem Has.star {U : Uni} {g n : Bool} {it : List Item} {pre w rest : Str} (h : ∀ x ∈ w, evalSet U n it x = true) :
    Has U (.star g (.set n it)) pre w rest :=
  fun s => ⟨s, mem_star_set.2 ⟨w, h, ⟨rfl, rfl⟩, rfl⟩⟩

theorem Has.isMatch {U : Uni} {r : Re} {w rest : Str} (h : Has U r [] w rest) : r.isMatch U (w ++ rest) = true := by
  obtain ⟨s, h⟩ := h []
  unfold Re.isMatch
  cases hm : r.matchAt U ⟨[], w ++ rest⟩ with
  | none =>
    rw [Re.matchAt_none] at hm
    rw [hm] at h; cases h
  | some p => rw [Re.search_hit hm]; rfl

/-- Words made of characters listed one by one. -/
def Re.accepts : Re → Str → Bool
  | .alt a b, w => a.accepts w || b.accepts w
  | .seq (.set false it) r, c :: w => it.contains (.chr c) && r.accepts w
  | .set false it, [c] => it.contains (.chr c)
  | _, _ => false

theorem evalSet_mem {U : Uni} {it : List Item} {c : Char} (h : it.contains (.chr c) = true) : evalSet U false it c = true := by
  have : it.any (fun i => i.eval U c) = true := List.any_eq_true.2 ⟨.chr c, by simpa using h, by simp [Item.eval_chr]⟩
  simp [evalSet, this]

theorem Re.accepts_has {U : Uni} : ∀ {r : Re} {w pre rest : Str}, r.accepts w = true → Has U r pre w rest := by
  intro r w
  fun_induction Re.accepts r w with
  | case1 a b w iha ihb =>
    intro pre rest h
    simp only [Bool.or_eq_true] at h
    rcases h with h | h
    · exact .left (iha h)
    · exact .right (ihb h)
  | case2 it r c w ih =>
    intro pre rest h
    simp only [Bool.and_eq_true] at h
    exact Has.seq (u := [c]) (.set (evalSet_mem h.1)) (ih h.2)
  | case3 it c =>
    intro pre rest h
    exact .set (evalSet_mem h)
  | case4 => intro pre rest h; cases h

/-- The names in `UNWRAPPABLE_RE`. -/
def blockNames : Re :=
  match UNWRAPPABLE_RE with
  | .seq _ (.seq _ (.seq a _)) => a
  | _ => .eps

theorem unwrappable_shape : UNWRAPPABLE_RE = .seq (.set false [.chr '<']) (.seq (.alt (.set false [.chr '/']) .eps) (.seq blockNames
    (.seq (.alt (.seq (.set false [.cls .space]) (.star false (.set true [.chr '<', .chr '>']))) (.alt (.set false [.chr '/']) .eps))
      (.set false [.chr '>'])))) := by kernel_rfl

theorem list_unwrapped {U : Uni} {k : Spec.ListKind} {n : Nat} {x : Str} :
    hasRawText U (t!"<" ++ k.name ++ k.attr n ++ t!">" ++ x) = false := by
  have hn : Has U blockNames ['<'] k.name (k.attr n ++ (t!">" ++ x)) := by
    apply Re.accepts_has
    unfold Spec.ListKind.name
    split <;> decide +kernel
  have ha : ∀ pre, Has U (.alt (.seq (.set false [.cls .space]) (.star false (.set true [.chr '<', .chr '>']))) (.alt (.set false [.chr '/']) .eps))
      pre (k.attr n) (t!">" ++ x) := by
    intro pre
    have key : ∀ a : Str, '<' ∉ a → '>' ∉ a → Has U (.seq (.set false [.cls .space]) (.star false (.set true [.chr '<', .chr '>'])))
        pre (' ' :: a) (t!">" ++ x) := by
      intro a h1 h2
      refine Has.seq (u := [' ']) (.set rfl) (.star ?_)
      intro c hc
      have e1 : c ≠ '<' := by rintro rfl; exact h1 hc
      have e2 : c ≠ '>' := by rintro rfl; exact h2 hc
      simp [evalSet, Item.eval_chr, e1, e2]
    have h1 := attr_nolt (k := k) (n := n)
    have h2 := (attr_none (k := k) (n := n)).1
    cases k with
    | bullets => exact .right (.right .eps)
    | numbers => exact .right (.right .eps)
    | numbersFrom m =>
      refine .left (key (t!"start=\"" ++ Spec.numeral n ++ t!"\"") ?_ ?_)
      · simpa [Spec.ListKind.attr] using h1
      · simpa [Spec.ListKind.attr] using h2
    | numbersOn =>
      refine .left (key (t!"start=\"" ++ Spec.numeral n ++ t!"\"") ?_ ?_)
      · simpa [Spec.ListKind.attr] using h1
      · simpa [Spec.ListKind.attr] using h2
  have : UNWRAPPABLE_RE.isMatch U (t!"<" ++ k.name ++ k.attr n ++ t!">" ++ x) = true := by
    rw [unwrappable_shape]
    have e : t!"<" ++ k.name ++ k.attr n ++ t!">" ++ x = (t!"<" ++ ([] ++ (k.name ++ (k.attr n ++ t!">")))) ++ x := by simp
    rw [e]
    apply Has.isMatch
    refine .seq (.set rfl) (.seq (.right .eps) (.seq ?_ (.seq (ha _) (.set rfl))))
    simpa using hn
  unfold hasRawText
  rw [this]
  simp

/-! ## The source -/

theorem numeral_mem {n : Nat} {c : Char} (h : c ∈ Spec.numeral n) : c ∈ t!"0123456789" := by
  rw [natStr_numeral] at h
  have h := natStr_alnum h
  have e : c = Char.ofNat c.toNat := by simp
  have : ∀ k, 48 ≤ k → k ≤ 57 → Char.ofNat k ∈ t!"0123456789" := by
    intro k h1 h2
    have : k = 48 ∨ k = 49 ∨ k = 50 ∨ k = 51 ∨ k = 52 ∨ k = 53 ∨ k = 54 ∨ k = 55 ∨ k = 56 ∨ k = 57 := by omega
    rcases this with rfl | rfl | rfl | rfl | rfl | rfl | rfl | rfl | rfl | rfl <;> decide
  rw [e]; exact this _ h.1 h.2

theorem suffix_mem {k : Spec.ListKind} {c : Char} (h : c ∈ k.suffix) : c ∈ t!"0123456789_" := by
  cases k with
  | bullets => cases h
  | numbers => cases h
  | numbersOn => exact (by decide : ∀ c ∈ ['_'], c ∈ t!"0123456789_") c h
  | numbersFrom n => exact (by decide : ∀ c ∈ t!"0123456789", c ∈ t!"0123456789_") c (numeral_mem h)

theorem lines_src : ∀ {t : Spec.Items} {m s : Str}, srcA.Over m → srcA.Over s → AllTexts (linesA.Over) t →
    ∀ l ∈ t.lines m s, srcA.Over l
  | .done, _, _, _, _, _, l, hl => by cases hl
  | .item a k sub next, m, s, hm, hs, h, l, hl => by
    have hk : srcA.Over (m ++ [k.mark]) := by
      rw [Alpha.Over.append]
      refine ⟨hm, fun c hc => .inl ?_⟩
      simp only [List.mem_singleton] at hc
      rw [hc, Spec.ListKind.mark]; split <;> decide
    simp only [Spec.Items.lines, List.mem_cons, List.mem_append] at hl
    rcases hl with rfl | hl | hl
    · simp only [Alpha.Over.append]
      refine ⟨⟨⟨hm, hs⟩, fun c hc => .inl ((by decide : ∀ c ∈ [' '], c ∈ srcA.ascii) c hc)⟩, fun c hc => ?_⟩
      exact Alpha.mono (by decide) rfl (h.1 c hc)
    · exact lines_src hk (fun c hc => .inl ((by decide : ∀ c ∈ t!"0123456789_", c ∈ srcA.ascii) c (suffix_mem hc))) h.2.1 l hl
    · exact lines_src hm (fun c hc => (by cases hc)) h.2.2 l hl

theorem mark_mem (k : Spec.ListKind) : k.mark ∈ t!"*#" := by
  rw [Spec.ListKind.mark]; split <;> decide

theorem lists_src {k : Spec.ListKind} {t : Spec.Items} (h : AllTexts linesA.Over t) : ∀ l ∈ t.lines [k.mark] k.suffix, srcA.Over l := by
  refine lines_src ?_ (fun c hc => .inl ((by decide : ∀ c ∈ t!"0123456789_", c ∈ srcA.ascii) c (suffix_mem hc))) h
  intro c hc
  simp only [List.mem_singleton] at hc
  rw [hc]
  exact .inl ((by decide : ∀ c ∈ t!"*#", c ∈ srcA.ascii) _ (mark_mem k))

theorem source_over {k : Spec.ListKind} {t : Spec.Items} (h : AllTexts linesA.Over t) : srcA.Over (Spec.listSource k t) := by
  intro c hc
  rcases mem_join hc with hc | ⟨l, hl, hc⟩
  · exact .inl ((by decide : ∀ c ∈ t!"\n", c ∈ srcA.ascii) c hc)
  · exact lists_src h l hl c hc

theorem source_start {k : Spec.ListKind} {t : Spec.Items} (hne : t ≠ .done) :
    ∃ rest, Spec.listSource k t = k.mark :: (k.suffix ++ ' ' :: rest) := by
  cases t with
  | done => exact absurd rfl hne
  | item a b sub next =>
    unfold Spec.listSource
    simp only [Spec.Items.lines]
    cases hd : sub.lines ([k.mark] ++ [b.mark]) b.suffix ++ next.lines [k.mark] [] with
    | nil => exact ⟨a, by simp [Spec.join]⟩
    | cons x l =>
      rw [join_cons (by simp)]
      exact ⟨a ++ (t!"\n" ++ Spec.join t!"\n" (x :: l)), by simp⟩

theorem tag_none_list {C : Ctx} {k : Spec.ListKind} {t : Spec.Items} (hne : t ≠ .done) :
    (blockTagRe C).captures C.U (Spec.listSource k t) = none := by
  obtain ⟨rest, hs⟩ := source_start (k := k) hne
  apply Re.captures_none
  rw [blockTagRe, tagRe_shape]
  apply Re.search_bot
  generalize hre : (Re.seq (.grp 1 (tagWords C.cfg.lite)) (.seq (.grp 2 tagAtts) (.seq dotRe (.seq extRe
    (.seq citeRe (.seq spRe allRe)))))) = rr
  cases hl : rr.all C.U ⟨[], Spec.listSource k t⟩ [] with
  | nil => rfl
  | cons p l =>
    exfalso
    obtain ⟨w, hw', lw⟩ := Re.all_lang rr ⟨[], Spec.listSource k t⟩ [] p (by rw [hl]; simp)
    subst hre
    obtain ⟨u, v, rfl, hu, -⟩ := lw
    have e : Spec.listSource k t = u ++ v ++ p.1.rest := hw'.1
    rw [hs] at e
    have hb := tagWords_lang hu
    have hm := mark_mem k
    have key : ∀ d x, k.suffix ++ ' ' :: rest = d :: x → d ≠ '#' := by
      rintro d x e' rfl
      have h2 : '#' ∈ k.suffix ∨ '#' = ' ' := by
        cases hsx : k.suffix with
        | nil => rw [hsx] at e'; simp at e'
        | cons y s => rw [hsx] at e'; simp at e'; left; rw [e'.1]; simp
      rcases h2 with h2 | h2
      · exact absurd (suffix_mem h2) (by decide)
      · exact absurd h2 (by decide)
    have fin : ∀ ws : List Str, (∀ w ∈ ws, w ≠ [] ∧ w.head? ≠ some '*' ∧ (w.head? = some '#' → ∃ x, w.tail = '#' :: x)) → u ∉ ws := by
      intro ws hws hu
      obtain ⟨h1, h2, h3⟩ := hws u hu
      cases u with
      | nil => exact h1 rfl
      | cons c u =>
        simp only [List.cons_append, List.cons.injEq] at e
        obtain ⟨rfl, e⟩ := e
        simp only [List.mem_cons, List.not_mem_nil, or_false] at hm
        rcases hm with hm | hm
        · exact h2 (by simp [hm])
        · obtain ⟨x, hx⟩ := h3 (by simp [hm])
          simp only [List.tail_cons] at hx
          rw [hx] at e
          exact key '#' _ e rfl
    unfold Spec.blockWord Spec.liteWord Spec.fullWord at hb
    split at hb
    · refine fin _ ?_ hb
      simp
    · rcases hb with hb | ⟨d, ds, rfl, -⟩
      · refine fin _ ?_ hb
        simp
      · simp only [List.cons_append, List.cons.injEq] at e
        rw [e.1] at hm
        revert hm; decide

theorem notedef_none {U : Uni} {k : Spec.ListKind} {t : Spec.Items} (hne : t ≠ .done) :
    NOTEDEF_RE.search U [] (Spec.listSource k t) = none := by
  obtain ⟨rest, hs⟩ := source_start (k := k) hne
  obtain ⟨r, hr⟩ : ∃ r, NOTEDEF_RE = .seq .bot (.seq (.set false [.chr 'n']) r) := ⟨_, rfl⟩
  rw [hr, hs]
  apply Re.search_bot
  rw [all_seq_set_cons, evalSet_chr, if_neg]
  have hm := mark_mem k
  intro h
  simp only [beq_iff_eq] at h
  rw [h] at hm
  revert hm; decide

theorem list_over {k : Spec.ListKind} {t : Spec.Items} {N : Spec.Numbers} (h : AllTexts linesA.Over t) : htmlA.Over (Spec.listHtml k t N) := by
  have hok : ∀ c ∈ tagChars, htmlA.Mem c := fun c hc => .inl ((by decide : ∀ c ∈ tagChars, c ∈ htmlA.ascii) c hc)
  refine around_chars (ok := htmlA.Mem) hok (html_chars hok (.inl (by decide)) (h.mono ?_))
  intro t ht c hc
  exact Alpha.mono (by decide) rfl (ht c hc)

theorem list_last {k : Spec.ListKind} {t : Spec.Items} {N : Spec.Numbers} : (Spec.listHtml k t N).getLast? = some '>' := by
  unfold Spec.listHtml Spec.ListKind.around
  rw [List.getLast?_append]; simp

/-- What is asked of the items. -/
def ListOk (U : Uni) (ok : Char → Prop) (t : Spec.Items) : Prop := Fine ok t ∧ AllTexts linesA.Over t ∧ AllTexts (Plainly U) t

/-- `graf` on a list. -/
theorem graf_list {C : Ctx} {base : Str} (D : DocCtx C base) (hlite : C.cfg.lite = false) {ok : Char → Prop} (hL : Lowers C.U ok)
    (hok : ∀ c, c.toNat < 128 → ok c) {k : Spec.ListKind} {t : Spec.Items} (hk : k.Ok) (hne : t ≠ .done) (ht : ListOk C.U ok t)
    {σ : PState} {N : Spec.Numbers} (hN : Num N σ) :
    ∃ σ', Runs C (graf C C.fuel (Spec.listSource k t)) (Spec.listHtml k t N) σ σ' ∧ Renum σ σ' ∧ Num (Spec.listNumbers k t N) σ' := by
  obtain ⟨t1, t2, t3⟩ := ht
  obtain ⟨σ', h1, h2, h3⟩ := runs_lists D.uni hL (fun c hc => hok c ((by decide : ∀ c ∈ tagChars, c.toNat < 128) c hc)) (hok 'i' (by decide))
    hk hne t1 hN
  refine ⟨σ', ?_, h2, h3⟩
  obtain ⟨n, hn⟩ : ∃ n, C.fuel = n + 1 := ⟨C.fuel - 1, by have := D.fuel; omega⟩
  have hA := source_over (k := k) t2
  have hA2 : srcA.Over (Spec.listSource k t ++ t!"\n\n") := by
    rw [Alpha.Over.append]
    exact ⟨hA, fun c hc => .inl ((by decide : ∀ c ∈ t!"\n\n", c ∈ srcA.ascii) c hc)⟩
  have hH := list_over (k := k) (N := N) t2
  have hend : tableEnd C = t!"\n\n" := by simp [tableEnd, hlite]
  have hlast : ∀ c, (Spec.listHtml k t N).getLast? = some c → c ≠ '\n' := by
    intro c hc; rw [list_last] at hc; cases hc; decide
  have hneed : ∀ r ∈ [FOOTNOTE_RE, NOTEREF_RE] ++ spanPatterns, r.search C.U [] (Spec.listHtml k t N) = none := fun r hr =>
    Re.need_search D.uni htmlA_wf (List.all_eq_true.1 html_need r hr) hH []
  rw [hn]
  refine graf_split (runs_early (by have := D.fuel; omega)
    (fun r hr => Re.need_search D.uni srcA_wf (List.all_eq_true.1 src_early r hr) hA []) ?_ σ) ?_
  · refine containsStr_false_of_mem (c := ':') (by simp [D.colon]) ?_
    exact fun hc => Alpha.not_mem (by decide) (by decide) (hA _ hc)
  unfold grafLate
  refine (runs_table (Re.need_search D.uni srcA_wf (need_mem src_need (by simp)) hA2 []) σ).bind ?_
  rw [hend]
  refine Runs.bind (a := Spec.listSource k t ++ t!"\n\n") (σ' := σ)
    ((Leaves.unless fun _ => Leaves.replaceP (Re.need_search D.uni srcA_wf (need_mem src_need (by simp)) hA2 [])).runs σ) ?_
  refine Runs.bind (a := Spec.listHtml k t N) (σ' := σ') (Runs.unless (fun _ => h1) (by simp [hlite])) ?_
  refine Runs.bind ((Leaves.span fun r hr => hneed r (List.mem_append_right _ hr)).runs σ') ?_
  refine Runs.bind (a := Spec.listHtml k t N) (σ' := σ') (Runs.none (hneed _ (by simp)) σ') ?_
  refine Runs.bind (a := Spec.listHtml k t N) (σ' := σ') (Runs.none (hneed _ (by simp)) σ') ?_
  have hg := (list_pieces D.uni (k := k) (N := N) t3).glyphs (n := []) D.uni hlast (by simp)
  rw [List.append_nil] at hg
  rw [hg, trimEndP_of_last (by simpa using hlast)]
  exact Runs.pure _ _

/-- A list as a block of its own. -/
theorem list_step {C : Ctx} {base : Str} (D : DocCtx C base) (hlite : C.cfg.lite = false) {ok : Char → Prop} (hL : Lowers C.U ok)
    (hok : ∀ c, c.toNat < 128 → ok c) {k : Spec.ListKind} {t : Spec.Items} (hk : k.Ok) (hne : t ≠ .done) (ht : ListOk C.U ok t)
    {σ : PState} {N : Spec.Numbers} (hN : Num N σ) :
    ∃ σ', StepTo C (Spec.listSource k t) σ σ' (Spec.listHtml k t N) ∧ Renum σ σ' ∧ Num (Spec.listNumbers k t N) σ' := by
  obtain ⟨σ', h1, h2, h3⟩ := graf_list D hlite hL hok hk hne ht hN
  have hp := list_pieces D.uni (k := k) (N := N) ht.2.2
  have hA := source_over (k := k) ht.2.1
  obtain ⟨rest, hs⟩ := source_start (k := k) hne
  have hws : isWs k.mark = false ∧ k.mark ≠ ' ' := (by decide : ∀ c ∈ t!"*#", isWs c = false ∧ c ≠ ' ') _ (mark_mem k)
  refine ⟨σ', step_of_body (o := Spec.listHtml k t N) (by rw [hs]; exact trim_ne hws.1) ?_ ?_, h2, h3⟩
  · rw [doPBr_none (noPTag_free (hp.free (by decide)) (hp.free (by decide)))]
    exact (Broken.single hp.brFree).replace
  · intro s s1 s2 s3 s4 s5
    rw [blockBody_anonymous (tag_none_list hne) (.inr ⟨?_, ?_⟩)]
    · rw [s2, s3, s4]
      refine ⟨{ s with tag := t!"p", atts := [], cite := none, eat := false, lastClosing := [] }, true,
        (runs_blockNew (by decide) (by rw [hs]; simp) (notedef_none hne) h1).bind ?_, s1, rfl, rfl, rfl, rfl⟩
      have : hasRawText C.U (Spec.listHtml k t N) = false := by
        simp only [Spec.listHtml, Spec.ListKind.around, Spec.tabs, Nat.sub_self, List.replicate_zero, List.nil_append]
        simpa using list_unwrapped (U := C.U) (k := k)
      simp only [this]
      exact Runs.pure _ _
    · rw [hs]
      simp [startsWith, List.isPrefixOf, hws.2.symm]
    · exact Re.isMatch_none (Re.need_search D.uni srcA_wf (need_mem src_need (by simp)) hA _)

end Rustextile
