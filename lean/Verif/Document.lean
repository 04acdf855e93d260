import Verif.Glue

/-!
# Documents made of simple blocks
-/

namespace Rustextile

open Prog

/-- The settings the theorems about documents are about. -/
structure DocCtx (C : Ctx) (base : Str) : Prop where
  uni : UniOk C.U
  fuel : 3 ≤ C.fuel
  plain : Spec.PlainBase base
  uid : C.cfg.uid = uidOf base

theorem DocCtx.colon {C : Ctx} {base : Str} (D : DocCtx C base) : ':' ∈ C.cfg.uid := by
  rw [D.uid]; simp [uidOf]

/-- The text set aside for a block. -/
def valueOf : Spec.Block → Str
  | .verbatim tag ls => (verbatimParts tag (Spec.join t!"\n" ls)).2.2
  | _ => []

/-- A block in the output of the block parser; `n` placeholders have been used before. -/
def stage1 (C : Ctx) (n : Nat) : Spec.Block → Str
  | .para ls => openTag t!"p" ++ (Spec.join C.cfg.brTag ls ++ closeTag t!"p")
  | .tagged tag ls => openTag tag ++ (Spec.join C.cfg.brTag ls ++ closeTag tag)
  | .quote ls => t!"<blockquote>\n\t" ++ (openTag t!"p" ++ (Spec.join C.cfg.brTag ls ++ (closeTag t!"p" ++ t!"\n</blockquote>")))
  | .verbatim tag ls => (verbatimParts tag (Spec.join t!"\n" ls)).1 ++
      (shelfKey C.cfg.uid (n + 1) ++ (verbatimParts tag (Spec.join t!"\n" ls)).2.1)
  | .comment _ => []

/-- The state after a block. -/
def after (C : Ctx) (σ : PState) : Spec.Block → PState
  | .verbatim tag ls => σ.shelved C.cfg.uid (verbatimParts tag (Spec.join t!"\n" ls)).2.2
  | _ => σ

/-- What a round of the block loop does with a block. -/
def StepTo (C : Ctx) (b : Str) (σ σ' : PState) (h : Str) : Prop :=
  ∀ s : BlkSt, s.ext = [] → ∃ s', Runs C (blockStep C (graf C C.fuel) s b) s' σ σ' ∧
    s'.ext = [] ∧ s'.eatWs = false ∧ s'.whitespace = [] ∧ s'.out = (s.whitespace ++ h) :: s.out

theorem step_of_body {C : Ctx} {b o h : Str} {σ σ' : PState} (hb : trim b ≠ [])
    (hh : BR_TAG_RE.replaceTempl C.U C.cfg.brTag (doPBr C o) = h)
    (hbody : ∀ s : BlkSt, s.ext = [] → s.tag = t!"p" → s.atts = [] → s.cite = none → s.eat = false →
      ∃ s1 anon, Runs C (blockBody C (graf C C.fuel) s b) (s1, anon, o) σ σ' ∧ s1.ext = [] ∧ s1.eat = false ∧
        s1.out = s.out ∧ s1.whitespace = s.whitespace ∧ s1.eatWs = s.eatWs) : StepTo C b σ σ' h := by
  intro s hs
  obtain ⟨s1, anon, h1, h2, h3, h4, h5, h6⟩ := hbody s.start hs rfl rfl rfl rfl
  refine ⟨s1.add C anon o, ?_, ?_⟩
  · rw [blockStep_text hb hs]
    exact h1.bind (Runs.pure _ _)
  · have e : s1.add C anon o = { s1 with out := (s.whitespace ++ h) :: s.out, whitespace := [] } := by
      rcases s1 with ⟨a1, a2, a3, a4, a5, a6, a7, a8, a9⟩
      simp only at h2 h3 h4 h5 h6
      subst h2 h3 h4 h5 h6
      simp [BlkSt.add, hh, BlkSt.start]
    rw [e]
    exact ⟨h2, by rw [show ({ s1 with out := (s.whitespace ++ h) :: s.out, whitespace := [] } : BlkSt).eatWs = s1.eatWs from rfl, h6]; rfl, rfl, rfl⟩

/-! ## Break tags -/

theorem brFree_decide {w : Str} (h : free t!"<br" w = true ∧ free t!"<bR" w = true ∧ free t!"<Br" w = true ∧ free t!"<BR" w = true) :
    BrFree w := ⟨.of h.1, .of h.2.1, .of h.2.2.1, .of h.2.2.2⟩

theorem line_nolt {up : Char → Bool} {l : Str} (h : Spec.Words up l) : '<' ∉ l := by
  intro hn
  have := h.chars _ hn
  revert this; decide

theorem line_head {up : Char → Bool} {l : Str} (h : Spec.Line up l) (r : Str) : (l ++ r).head? ≠ some '\n' := by
  obtain ⟨c, u, rfl, -⟩ := h.start
  intro e
  simp at e
  exact words_no_nl h.toWords (by simp [e])

theorem join_line_head {up : Char → Bool} {sep r : Str} {l : Str} {ls : List Str} (h : Spec.Line up l) :
    (Spec.join sep (l :: ls) ++ r).head? ≠ some '\n' := by
  cases ls with
  | nil => exact line_head h r
  | cons m ls => rw [join_cons (by simp), List.append_assoc, List.append_assoc]; exact line_head h _

theorem broken_join {up : Char → Bool} {br z oz : Str} (hz : Broken br z oz) : ∀ {ls : List Str},
    (∀ l ∈ ls, Spec.Line up l) → Broken br (Spec.join br ls ++ z) (Spec.join (br ++ t!"\n") ls ++ oz)
  | [], _ => hz
  | [l], h => .text (.of_lt (line_nolt (h l (by simp)).toWords)) hz
  | l :: m :: ls, h => by
    have ih := broken_join hz (ls := m :: ls) (fun x hx => h x (List.mem_cons_of_mem _ hx))
    have := Broken.text (.of_lt (line_nolt (h l (by simp)).toWords)) (Broken.br (join_line_head (h m (by simp))) ih)
    rw [join_cons (sep := br) (l := l) (ls := m :: ls) (by simp),
      join_cons (sep := br ++ t!"\n") (l := l) (ls := m :: ls) (by simp)]
    simpa using this

theorem brFree_tags : ∀ tag ∈ brTags, BrFree (openTag tag) ∧ BrFree (closeTag tag) := by
  intro tag h
  simp only [brTags, List.mem_cons, List.not_mem_nil, or_false] at h
  rcases h with rfl | rfl | rfl | rfl | rfl | rfl | rfl <;>
    exact ⟨brFree_decide (by decide), brFree_decide (by decide)⟩

/-- A paragraph, heading or quotation with break tags, and with newlines after them. -/
theorem broken_element {up : Char → Bool} {br a z tag : Str} {ls : List Str} (ht : tag ∈ brTags)
    (h : ∀ l ∈ ls, Spec.Line up l) (ha : BrFree a) (hz : BrFree z) :
    Broken br (a ++ (openTag tag ++ (Spec.join br ls ++ (closeTag tag ++ z))))
      (a ++ (openTag tag ++ (Spec.join (br ++ t!"\n") ls ++ (closeTag tag ++ z)))) :=
  .text ha (.text (brFree_tags tag ht).1 (broken_join (.single ((brFree_tags tag ht).2.append hz)) h))

/-- Output of the block parser for lines of ordinary text. -/
theorem br_lines {C : Ctx} (hU : UniOk C.U) {a z tag : Str} {ls : List Str} (ht : tag ∈ brTags)
    (h : ∀ l ∈ ls, Spec.Line C.U.isLu l) (ha : BrFree a) (hz : BrFree z) (hpa : noPTag a = true) (hpz : noPTag z = true)
    (hzc : containsStr (closeTag tag) (closeTag tag ++ z).tail = false) :
    BR_TAG_RE.replaceTempl C.U C.cfg.brTag
      (doPBr C (a ++ (openTag tag ++ (Spec.join t!"\n" ls ++ (closeTag tag ++ z))))) =
      a ++ (openTag tag ++ (Spec.join C.cfg.brTag ls ++ (closeTag tag ++ z))) := by
  rw [doPBr_tag ht hpa hpz, brText_lines hU h]
  · exact (broken_element ht h ha hz).replace
  · intro v r e hv z' hr
    cases v with
    | nil => exact hv rfl
    | cons y v =>
      rw [e, List.cons_append, List.tail_cons, containsStr_iff.2 ⟨v, z', by rw [hr]⟩] at hzc
      cases hzc

/-! ## Kinds of blocks -/

theorem join_ne {up : Char → Bool} {ls : List Str} (h : Spec.Paragraph up ls) : Spec.join t!"\n" ls ≠ [] := by
  intro e
  obtain ⟨l, ls', rfl⟩ : ∃ l ls', ls = l :: ls' := by
    cases ls with
    | nil => exact absurd rfl h.ne
    | cons l ls' => exact ⟨l, ls', rfl⟩
  have := join_head (sep := t!"\n") (ls := ls') (line_ne (h.lines l (by simp)))
  rw [e] at this
  obtain ⟨c, u, rfl, -⟩ := (h.lines l (by simp)).start
  simp at this

theorem para_head {up : Char → Bool} {ls : List Str} (h : Spec.Paragraph up ls) :
    ∃ c u, Spec.join t!"\n" ls = c :: u ∧ isWs c = false ∧ c ≠ '\n' := by
  cases ls with
  | nil => exact absurd rfl h.ne
  | cons l ls =>
    obtain ⟨c, u, rfl, h1, -⟩ := line_start (h.lines l (by simp))
    have hc : c ≠ '\n' := fun e => words_no_nl (h.lines (c :: u) (by simp)).toWords (by simp [e])
    cases ls with
    | nil => exact ⟨c, u, rfl, h1, hc⟩
    | cons m ls => exact ⟨c, _, rfl, h1, hc⟩

theorem trim_ne {c : Char} {t : Str} (h : isWs c = false) : trim (c :: t) ≠ [] := by
  intro e
  have := (trim_isEmpty (s := c :: t)).1 (by rw [e]; rfl) c (by simp)
  rw [h] at this; cases this

theorem step_para {C : Ctx} {base : Str} (D : DocCtx C base) {ls : List Str} (h : Spec.Paragraph C.U.isLu ls)
    (hw : Spec.NoBlockWord C.U.isNd C.cfg.lite (Spec.join t!"\n" ls)) (σ : PState) :
    StepTo C (Spec.join t!"\n" ls) σ σ (openTag t!"p" ++ (Spec.join C.cfg.brTag ls ++ closeTag t!"p")) := by
  obtain ⟨c, u, hcu, hc, -⟩ := para_head h
  have hA := lines_over h.lines
  have hl := leaves_lines D.uni (by have := D.fuel; omega) D.colon h.lines h.ne
  refine step_of_body (o := openTag t!"p" ++ (Spec.join t!"\n" ls ++ closeTag t!"p")) (by rw [hcu]; exact trim_ne hc) ?_ ?_
  · have := br_lines D.uni (a := []) (z := []) (tag := t!"p") (by decide) h.lines (.of_lt (by simp)) (.of_lt (by simp)) rfl rfl (by decide)
    simpa using this
  · intro s h1 h2 h3 h4 h5
    rw [blockBody_anonymous (tag_none D.uni hA hw) (.inr ⟨?_, ?_⟩)]
    · rw [h2, h3, h4]
      refine ⟨{ s with tag := t!"p", atts := [], cite := none, eat := false, lastClosing := [] }, true,
        (runs_blockNew (by decide) (join_ne h) (Re.need_search D.uni linesA_wf NOTEDEF_need hA _) (hl.runs σ)).bind ?_,
        ?_⟩
      · simp only [hasRawText_lines D.uni hA]
        have : (Spec.join t!"\n" ls).isEmpty = false := by rw [hcu]; rfl
        simp only [this, Bool.not_true, Bool.and_false, Bool.or_false, Bool.false_eq_true, if_false]
        rw [List.append_assoc]
        exact Runs.pure _ _
      · exact ⟨h1, rfl, rfl, rfl, rfl⟩
    · rw [hcu]
      have : c ≠ ' ' := by rintro rfl; revert hc; decide
      simp [startsWith, List.isPrefixOf, this.symm]
    · exact Re.isMatch_none (Re.need_search D.uni linesA_wf DIVIDER_need hA _)

theorem step_tagged {C : Ctx} {base : Str} (D : DocCtx C base) {tag : Str} {ls : List Str} (h : Spec.Paragraph C.U.isLu ls)
    (ht : tag ∈ brTags) (ht' : tag ∈ plainTags C.cfg.lite) (σ : PState) :
    StepTo C (tag ++ (t!". " ++ Spec.join t!"\n" ls)) σ σ (openTag tag ++ (Spec.join C.cfg.brTag ls ++ closeTag tag)) := by
  have hA := lines_over h.lines
  have hl := leaves_lines D.uni (by have := D.fuel; omega) D.colon h.lines h.ne
  obtain ⟨m, hm, g1, g2, g3, g4, g5⟩ := tag_captures C (Spec.join t!"\n" ls) ht'
  refine step_of_body (o := openTag tag ++ (Spec.join t!"\n" ls ++ closeTag tag)) ?_ ?_ ?_
  · simp only [brTags, List.mem_cons, List.not_mem_nil, or_false] at ht
    rcases ht with rfl | rfl | rfl | rfl | rfl | rfl | rfl <;> exact trim_ne (by decide)
  · have := br_lines D.uni (a := []) (z := []) (tag := tag) ht h.lines (.of_lt (by simp)) (.of_lt (by simp)) rfl rfl (by
      simp only [brTags, List.mem_cons, List.not_mem_nil, or_false] at ht
      rcases ht with rfl | rfl | rfl | rfl | rfl | rfl | rfl <;> decide)
    simpa using this
  · intro s h1 h2 h3 h4 h5
    rw [blockBody_tagged hm, g1, g2, g3, g4, g5]
    refine ⟨{ s with tag := tag, atts := [], ext := [], cite := none, eat := false, lastClosing := [] }, false,
      (runs_blockNew ht (join_ne h) (Re.need_search D.uni linesA_wf NOTEDEF_need hA _) (hl.runs σ)).bind ?_, ?_⟩
    · rw [h1]
      simp only [List.isEmpty_nil, if_true, List.nil_append, List.append_nil]
      rw [List.append_assoc]
      exact Runs.pure _ _
    · exact ⟨rfl, rfl, rfl, rfl, rfl⟩

theorem step_quote {C : Ctx} {base : Str} (D : DocCtx C base) {ls : List Str} (h : Spec.Paragraph C.U.isLu ls) (σ : PState) :
    StepTo C (t!"bq" ++ (t!". " ++ Spec.join t!"\n" ls)) σ σ
      (t!"<blockquote>\n\t" ++ (openTag t!"p" ++ (Spec.join C.cfg.brTag ls ++ (closeTag t!"p" ++ t!"\n</blockquote>")))) := by
  have hA := lines_over h.lines
  have hl := leaves_lines D.uni (by have := D.fuel; omega) D.colon h.lines h.ne
  obtain ⟨m, hm, g1, g2, g3, g4, g5⟩ := tag_captures C (Spec.join t!"\n" ls) (tag := t!"bq")
    (by unfold plainTags; split <;> decide)
  refine step_of_body (o := t!"<blockquote>\n\t" ++ (openTag t!"p" ++ (Spec.join t!"\n" ls ++ (closeTag t!"p" ++ t!"\n</blockquote>"))))
    (trim_ne (by decide)) ?_ ?_
  · exact br_lines D.uni (by decide) h.lines (brFree_decide (by decide)) (brFree_decide (by decide)) rfl rfl (by decide)
  · intro s h1 h2 h3 h4 h5
    rw [blockBody_tagged hm, g1, g2, g3, g4, g5]
    refine ⟨{ s with tag := t!"bq", atts := [], ext := [], cite := none, eat := false, lastClosing := t!"\n</blockquote>" }, false,
      (runs_blockNew_bq (hl.runs σ)).bind ?_, ?_⟩
    · rw [h1]
      have e : ∀ x : Str, t!"<blockquote>\n" ++ t!"\t<p>" ++ x ++ t!"</p>" ++ t!"\n</blockquote>" =
        t!"<blockquote>\n\t" ++ (openTag t!"p" ++ (x ++ (closeTag t!"p" ++ t!"\n</blockquote>"))) := by
        intro x; simp [openTag, closeTag]
      simp only [List.isEmpty_nil, if_true, e]
      exact Runs.pure _ _
    · exact ⟨rfl, rfl, rfl, rfl, rfl⟩

theorem key_nolt {C : Ctx} {base : Str} (D : DocCtx C base) (n : Nat) : '<' ∉ shelfKey C.cfg.uid n := by
  rw [D.uid]
  intro h
  exact tokA_not (key_over D.plain n _ h) (by decide)

theorem parts_cases (tag t : Str) :
    ((verbatimParts tag t).1 = t!"<pre><code>" ∧ (verbatimParts tag t).2.1 = t!"</code></pre>") ∨
    ((verbatimParts tag t).1 = t!"<pre>" ∧ (verbatimParts tag t).2.1 = t!"</pre>") ∨
    ((verbatimParts tag t).1 = [] ∧ (verbatimParts tag t).2.1 = []) := by
  unfold verbatimParts
  split
  · exact .inl ⟨rfl, rfl⟩
  · split
    · exact .inr (.inl ⟨rfl, rfl⟩)
    · exact .inr (.inr ⟨rfl, rfl⟩)

theorem not_contains_of_free {n t : Str} (hn : n ≠ []) (h : Free n t) : containsStr n t = false := by
  cases hc : containsStr n t with
  | false => rfl
  | true => obtain ⟨a, b, e⟩ := containsStr_iff.1 hc; exact absurd e (h.not_infix hn a b)

theorem br_verbatim {C : Ctx} {base : Str} (D : DocCtx C base) (tag t : Str) (n : Nat) :
    BR_TAG_RE.replaceTempl C.U C.cfg.brTag (doPBr C ((verbatimParts tag t).1 ++
      (shelfKey C.cfg.uid n ++ (verbatimParts tag t).2.1))) =
      (verbatimParts tag t).1 ++ (shelfKey C.cfg.uid n ++ (verbatimParts tag t).2.1) := by
  have hk := key_nolt D n
  have key : ∀ a z : Str, free t!"</p>" a = true ∧ free t!"</h" a = true → free t!"</p>" z = true ∧ free t!"</h" z = true →
      BrFree a → BrFree z → BR_TAG_RE.replaceTempl C.U C.cfg.brTag (doPBr C (a ++ (shelfKey C.cfg.uid n ++ z))) =
      a ++ (shelfKey C.cfg.uid n ++ z) := by
    intro a z ha hz ba bz
    rw [doPBr_noclose (not_contains_of_free (by simp) ((Free.of ha.1).append ((Free.of_head rfl hk).append (Free.of hz.1))))
      (not_contains_of_free (by simp) ((Free.of ha.2).append ((Free.of_head rfl hk).append (Free.of hz.2))))]
    exact Broken.replace (Broken.single (ba.append ((BrFree.of_lt hk).append bz)))
  rcases parts_cases tag t with ⟨h1, h2⟩ | ⟨h1, h2⟩ | ⟨h1, h2⟩ <;> rw [h1, h2] <;>
    exact key _ _ (by decide) (by decide) (brFree_decide (by decide)) (brFree_decide (by decide))

theorem step_verbatim {C : Ctx} {base : Str} (D : DocCtx C base) {tag t : Str}
    (ht : tag ∈ [t!"bc", t!"pre", t!"notextile"]) (ht' : tag ∈ plainTags C.cfg.lite) (σ : PState) :
    StepTo C (tag ++ (t!". " ++ t)) σ (σ.shelved C.cfg.uid (verbatimParts tag t).2.2)
      ((verbatimParts tag t).1 ++ (shelfKey C.cfg.uid (σ.refIndex + 1) ++ (verbatimParts tag t).2.1)) := by
  obtain ⟨m, hm, g1, g2, g3, g4, g5⟩ := tag_captures C t ht'
  refine step_of_body ?_ (br_verbatim D tag t (σ.refIndex + 1)) ?_
  · simp only [List.mem_cons, List.not_mem_nil, or_false] at ht
    rcases ht with rfl | rfl | rfl <;> exact trim_ne (by decide)
  · intro s h1 h2 h3 h4 h5
    rw [blockBody_tagged hm, g1, g2, g3, g4, g5]
    refine ⟨{ s with tag := tag, atts := [], ext := [], cite := none, eat := false, lastClosing := (verbatimParts tag t).2.1 }, false,
      (runs_blockNew_verbatim ht (fun σ n => (leaves_key D.uni (by have := D.fuel; omega) D.plain D.uid n).runs σ)).bind ?_, ?_⟩
    · rw [h1]
      simp only [List.isEmpty_nil, if_true, List.append_nil]
      rw [List.append_assoc]
      exact Runs.pure _ _
    · exact ⟨rfl, rfl, rfl, rfl, rfl⟩

theorem step_comment {C : Ctx} {t : Str} (hl : C.cfg.lite = false) (σ : PState) (s : BlkSt) (hs : s.ext = []) :
    ∃ s', Runs C (blockStep C (graf C C.fuel) s (t!"###" ++ (t!". " ++ t))) s' σ σ ∧
      s'.ext = [] ∧ s'.eatWs = true ∧ s'.whitespace = s.whitespace ∧ s'.out = s.out := by
  obtain ⟨m, hm, g1, g2, g3, g4, g5⟩ := tag_captures C t (tag := t!"###") (by rw [hl]; decide)
  refine ⟨{ s with tag := t!"###", atts := [], ext := [], cite := none, eat := true, eatWs := true, lastClosing := [] }, ?_, rfl, rfl, rfl, rfl⟩
  rw [blockStep_text (b := t!"###" ++ (t!". " ++ t)) (trim_ne (by decide)) hs, blockBody_tagged hm, g1, g2, g3, g4, g5, LawfulMonad.bind_assoc]
  refine runs_blockNew_comment.bind ?_
  rw [pure_bind]
  rcases s with ⟨a1, a2, a3, a4, a5, a6, a7, a8, a9⟩
  simp only at hs
  subst hs
  simp only [BlkSt.start, BlkSt.add, List.isEmpty_nil, if_true]
  exact Runs.pure _ _

/-! ## The block loop -/

/-- Number of placeholders used after a block. -/
def bump (n : Nat) : Spec.Block → Nat
  | .verbatim _ _ => n + 1
  | _ => n

/-- The blocks that are shown, with the number of placeholders used before. -/
def numbered : Nat → List (Spec.Block × Nat) → List (Nat × Spec.Block × Nat)
  | _, [] => []
  | n, (b, k) :: ds => if b.isComment then numbered n ds else (n, b, k) :: numbered (bump n b) ds

def afterAll (C : Ctx) (σ : PState) (ds : List (Spec.Block × Nat)) : PState := ds.foldl (fun σ d => after C σ d.1) σ

abbrev BlockOk (C : Ctx) (b : Spec.Block) : Prop := b.Ok C.U.isLu C.U.isNd C.cfg.lite

theorem tagged_mem {C : Ctx} {tag : Str}
    (h : tag ∈ t!"p" :: (if C.cfg.lite then [] else [t!"h1", t!"h2", t!"h3", t!"h4", t!"h5", t!"h6"])) :
    tag ∈ brTags ∧ tag ∈ plainTags C.cfg.lite := by
  unfold plainTags brTags
  split at h <;> simp_all <;> grind

theorem verbatim_mem {C : Ctx} {tag : Str}
    (h : tag ∈ t!"bc" :: (if C.cfg.lite then [] else [t!"pre", t!"notextile"])) :
    tag ∈ [t!"bc", t!"pre", t!"notextile"] ∧ tag ∈ plainTags C.cfg.lite := by
  unfold plainTags
  split at h <;> simp_all <;> grind

theorem step_visible {C : Ctx} {base : Str} (D : DocCtx C base) {b : Spec.Block} (h : BlockOk C b)
    (hc : b.isComment = false) (σ : PState) :
    StepTo C b.source σ (after C σ b) (stage1 C σ.refIndex b) := by
  cases b with
  | para ls => exact step_para D h.1 h.2.1 σ
  | tagged tag ls => exact step_tagged D h.1 (tagged_mem h.2.1).1 (tagged_mem h.2.1).2 σ
  | quote ls => exact step_quote D h.1 σ
  | verbatim tag ls => exact step_verbatim D (verbatim_mem h.2.1).1 (verbatim_mem h.2.1).2 σ
  | comment ls => cases hc

theorem after_refIndex (C : Ctx) (σ : PState) (b : Spec.Block) : (after C σ b).refIndex = bump σ.refIndex b := by
  cases b <;> rfl

theorem step_nls {C : Ctx} {g : Str → Prog Str} (s : BlkSt) (k : Nat) (σ : PState) :
    Runs C (blockStep C g s (nls k)) (if s.eatWs then s else { s with whitespace := s.whitespace ++ nls k }) σ σ := by
  unfold blockStep
  rw [if_pos]
  · exact Runs.pure _ _
  · rw [trim_isEmpty]
    intro c hc
    simp [nls] at hc
    rw [hc.2]; decide

def shown (ps : List (Str × Nat)) (ws : Str) : Str := if ps.isEmpty then [] else ws ++ Spec.glue ps

theorem shown_cons {t ws : Str} {k : Nat} {ps : List (Str × Nat)} :
    shown ((t, k) :: ps) ws = ws ++ (t ++ shown ps (nls (k + 2))) := by
  cases ps with
  | nil => simp [shown, Spec.glue]
  | cons p ps => simp [shown, glue_cons]

theorem loop_doc {C : Ctx} {base : Str} (D : DocCtx C base) : ∀ {ds : List (Spec.Block × Nat)}, ds ≠ [] →
    (∀ d ∈ ds, BlockOk C d.1) → ∀ (s : BlkSt) (σ : PState), s.ext = [] →
    ∃ s', Runs C (blockLoop C (graf C C.fuel) s (interleave (ds.map (fun d => (d.1.source, d.2))))) s' σ (afterAll C σ ds) ∧
      s'.ext = [] ∧ concat s'.out.reverse = concat s.out.reverse ++
        shown ((numbered σ.refIndex ds).map (fun d => (stage1 C d.1 d.2.1, d.2.2))) s.whitespace
  | [], h, _, _, _, _ => absurd rfl h
  | [(b, k)], _, h, s, σ, hs => by
    have hb := h (b, k) (by simp)
    rw [show interleave ([(b, k)].map (fun d => (d.1.source, d.2))) = [b.source] from rfl, blockLoop_single]
    by_cases hc : b.isComment = true
    · obtain ⟨ls, rfl⟩ : ∃ ls, b = .comment ls := by cases b <;> first | exact ⟨_, rfl⟩ | cases hc
      obtain ⟨s', h1, h2, h3, h4, h5⟩ := step_comment (C := C) (t := Spec.join t!"\n" ls) hb.2 σ s hs
      exact ⟨s', h1, h2, by rw [h5]; simp [numbered, Spec.Block.isComment, shown]⟩
    · rw [Bool.not_eq_true] at hc
      obtain ⟨s', h1, h2, h3, h4, h5⟩ := step_visible D hb hc σ s hs
      refine ⟨s', h1, h2, ?_⟩
      rw [h5]
      simp [numbered, hc, shown, Spec.glue, concat]
  | (b, k) :: d :: ds, _, h, s, σ, hs => by
    have hb := h (b, k) (by simp)
    have ih := loop_doc D (ds := d :: ds) (by simp) (fun x hx => h x (List.mem_cons_of_mem _ hx))
    rw [show interleave (((b, k) :: d :: ds).map (fun d => (d.1.source, d.2))) =
      b.source :: nls (k + 2) :: interleave ((d :: ds).map (fun d => (d.1.source, d.2))) from rfl]
    simp only [blockLoop_cons]
    by_cases hc : b.isComment = true
    · obtain ⟨ls, rfl⟩ : ∃ ls, b = .comment ls := by cases b <;> first | exact ⟨_, rfl⟩ | cases hc
      obtain ⟨s', h1, h2, h3, h4, h5⟩ := step_comment (C := C) (t := Spec.join t!"\n" ls) hb.2 σ s hs
      have hn := step_nls (C := C) (g := graf C C.fuel) s' (k + 2) σ
      rw [if_pos h3] at hn
      obtain ⟨s2, r1, r2, r3⟩ := ih s' σ h2
      refine ⟨s2, h1.bind (hn.bind r1), r2, ?_⟩
      rw [r3, h4, h5]; rfl
    · rw [Bool.not_eq_true] at hc
      obtain ⟨s', h1, h2, h3, h4, h5⟩ := step_visible D hb hc σ s hs
      have hn := step_nls (C := C) (g := graf C C.fuel) s' (k + 2) (after C σ b)
      rw [if_neg (by rw [h3]; simp)] at hn
      obtain ⟨s2, r1, r2, r3⟩ := ih { s' with whitespace := s'.whitespace ++ nls (k + 2) } (after C σ b) h2
      refine ⟨s2, h1.bind (hn.bind r1), r2, ?_⟩
      rw [r3, after_refIndex]
      simp only [h4, h5]
      rw [show numbered σ.refIndex ((b, k) :: d :: ds) = (σ.refIndex, b, k) :: numbered (bump σ.refIndex b) (d :: ds) by
        rw [numbered, hc]; rfl, List.map_cons, shown_cons]
      simp [concat]

/-- The text after the block parser. -/
def text1 (C : Ctx) (ds : List (Spec.Block × Nat)) : Str :=
  Spec.glue ((numbered 0 ds).map (fun d => (stage1 C d.1 d.2.1, d.2.2)))

end Rustextile
