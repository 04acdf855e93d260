import Verif.ListBlock

/-!
# Documents with lists
-/

namespace Rustextile

open Prog

/-! ## From the description to the conditions of the proofs -/

theorem itemText_ok {U : Uni} {t : Str} (h : Spec.ItemText U.isLu t) : linesA.Over t ∧ Plainly U t ∧ '\n' ∉ t ∧ trim t = t ∧ t ≠ [] := by
  obtain ⟨h1, h2⟩ := words_prose h.toWords
  refine ⟨h1, ⟨fun c hc => Alpha.mono (by decide) rfl (h1 c hc), good_iff.2 ⟨h.caps, h.dots, h.dims⟩⟩, h2, ?_, ?_⟩
  · obtain ⟨c, u, e, hc⟩ := h.first
    obtain ⟨v, d, e', hd⟩ := h.last
    have w1 := (plain_nows (h.chars c (by rw [e]; simp)) hc).1
    have w2 := (plain_nows (h.chars d (by rw [e']; simp)) hd).1
    unfold trim trimP trimStartP
    rw [dropWhile_of_head, trimEndP_of_last]
    · intro x hx; rw [e'] at hx; simp at hx; rw [← hx]; exact w2
    · intro x hx; rw [e] at hx; simp at hx; rw [← hx]; exact w1
  · obtain ⟨c, u, e, hc⟩ := h.first
    rw [e]; simp

theorem items_ok {U : Uni} {ok : Char → Prop} : ∀ {t : Spec.Items}, t.Ok U.isLu → (∀ c ∈ t.chars, ok c) → ListOk U ok t
  | .done, _, _ => ⟨trivial, trivial, trivial⟩
  | .item a k sub next, h, hc => by
    obtain ⟨h1, h2, h3, h4⟩ := h
    obtain ⟨g1, g2, g3, g4, g5⟩ := itemText_ok h1
    simp only [Spec.Items.chars, List.mem_append] at hc
    obtain ⟨a1, a2, a3⟩ := items_ok (t := sub) h3 (fun c h => hc c (.inr (.inl h)))
    obtain ⟨b1, b2, b3⟩ := items_ok (t := next) h4 (fun c h => hc c (.inr (.inr h)))
    exact ⟨⟨⟨g4, g5, g3, fun c h => hc c (.inl h)⟩, h2, a1, b1⟩, ⟨g1, a2, b2⟩, ⟨g2, a3, b3⟩⟩

/-! ## Blocks -/

/-- Lists and tables contain no placeholders. -/
theorem Pieces.rep {U : Uni} {base t : Str} {τ : PState} (h : Pieces U t) : Rep (uidOf base) τ t t := by
  induction h with
  | last h =>
    have := (Rep.nil (uid := uidOf base) (σ := τ)).text (textA_none h.1).2.2.1
    simpa using this
  | tag h hg _ ih =>
    refine Rep.text (RepK.chunk ?_ ih) (textA_none h.1).2.2.1
    obtain ⟨x, b, rfl, hx, -, -, -, h4⟩ := hg
    refine Sealed.tag (m := x :: b) ?_
    cases hc : containsStr (uidOf base) ('<' :: (x :: b ++ ['>'])) with
    | false => rfl
    | true =>
      exfalso
      obtain ⟨u, v, e⟩ := containsStr_iff.1 hc
      have hi : ['f', ':'] <:+: '<' :: (x :: b ++ ['>']) := ⟨u ++ t!"textileRe", base ++ ':' :: v, by rw [e]; simp [uidOf]⟩
      have hx' : x ≠ 'f' := by rintro rfl; revert hx; decide
      obtain ⟨u, v, e⟩ := hi
      simp only [List.append_assoc, List.cons_append, List.nil_append] at e
      rcases u with _ | ⟨a, _ | ⟨a', u⟩⟩
      · simp at e
      · simp only [List.cons_append, List.nil_append, List.cons.injEq] at e; exact hx' e.2.1.symm
      · simp only [List.cons_append, List.cons.injEq] at e
        have e := e.2.2
        rcases List.eq_nil_or_concat v with rfl | ⟨v, z, rfl⟩
        · have := congrArg List.getLast? e
          rw [List.getLast?_concat, show u ++ ['f', ':'] = (u ++ ['f']) ++ [':'] by simp, List.getLast?_concat] at this
          simp at this
        · refine h4 ⟨u, v, ?_⟩
          have : (u ++ 'f' :: ':' :: v) ++ [z] = b ++ ['>'] := by simpa using e
          have := (List.append_inj' this rfl).1
          simpa using this


theorem Renum.grow {uid : Str} {σ σ' : PState} (h : Renum σ σ') : Grow uid σ σ' := by
  obtain ⟨o, rfl⟩ := h
  exact ⟨Grows.of_same rfl rfl rfl rfl rfl, rfl, rfl⟩

/-- No footnotes or notes were stored, and no numbers taken for them. -/
structure Keeps (σ σ' : PState) : Prop where
  links : σ'.linkIndex = σ.linkIndex
  foots : σ'.footnotes = σ.footnotes
  rest : σ'.aux = { σ.aux with olStarts := σ'.aux.olStarts }

theorem Grow.keeps {uid : Str} {σ σ' : PState} (h : Grow uid σ σ') (ha : σ'.aux = { σ.aux with olStarts := σ'.aux.olStarts }) : Keeps σ σ' :=
  ⟨h.links, h.foots, ha⟩

/-- What happens to a block. -/
structure PieceTo (C : Ctx) (b : Str) (n : Nat) (N N' : Spec.Numbers) (σ σ' : PState) (q h : Str) : Prop where
  step : StepTo C b σ σ' q
  grow : Grow C.cfg.uid σ σ'
  num : Num N' σ'
  rest : σ'.aux = { σ.aux with olStarts := σ'.aux.olStarts }
  index : σ'.refIndex ≤ σ.refIndex + 2 * n
  rep : ∀ τ : PState, Agrees C.cfg.uid σ' τ → σ'.refIndex < 2 ^ 32 → Rep C.cfg.uid τ q h
  nolist : containsStr t!"<p>notelist" q = false

/-- The block before newlines are put after the break tags. -/
def pieceMid (br : Str) (N : Spec.Numbers) : Spec.Piece → Str
  | .rich b => richMid br b
  | .list k t => Spec.listHtml k t N

theorem piece_step {C : Ctx} {base : Str} (D : DocCtx C base) {ok : Char → Prop} (ha : ∀ c, c.toNat < 128 → ok c)
    {b : Spec.Piece} (hL : ∀ k t, b = .list k t → Lowers C.U ok) (h : b.Ok C.U.isLu C.U.isNd C.cfg.lite) (hc : ∀ c ∈ b.itemChars, ok c)
    (hR : b.Resolved (Spec.Resolves C.E.urlParse C.E.urlJoin C.cfg.restricted) C.cfg.rel)
    (htok : ¬ C.cfg.uid <:+: b.source) {σ : PState} {N : Spec.Numbers} (hN : Num N σ)
    (hd : σ.spanDepth + 1 ≤ C.cfg.maxSpanDepth) :
    ∃ σ' q, PieceTo C b.source b.marks N (b.numbers N) σ σ' q (pieceMid C.cfg.brTag N b) := by
  cases b with
  | rich b =>
    obtain ⟨σ', q, hq⟩ := rich_step D h hR htok hd
    refine ⟨σ', q, hq.step, hq.grow, ?_, by rw [hq.aux], hq.index, hq.rep, hq.nolist⟩
    unfold Num
    rw [hq.aux]
    exact hN
  | list k t =>
    obtain ⟨h1, h2, h3, h4⟩ := h
    have hok := items_ok h4 hc
    obtain ⟨σ', g1, g2, g3⟩ := list_step D h1 (hL k t rfl) ha h2 h3 hok hN
    have hp := list_pieces D.uni (k := k) (N := N) hok.2.2
    refine ⟨σ', _, g1, g2.grow, g3, by obtain ⟨o, rfl⟩ := g2; rfl, ?_, ?_, ?_⟩
    · obtain ⟨o, rfl⟩ := g2; exact Nat.le_add_right _ _
    · intro τ _ _
      rw [D.uid]
      simpa [pieceMid] using hp.rep
    · exact not_contains_of_free (by simp) (hp.free (by decide))

/-- The blocks of a document before newlines are put after the break tags. -/
def docMid (br : Str) : Spec.Numbers → List (Spec.Piece × Nat) → List (Str × Nat)
  | _, [] => []
  | N, d :: ds => (pieceMid br N d.1, d.2) :: docMid br (d.1.numbers N) ds

/-- What happens to the blocks of a document. -/
structure PiecesTo (C : Ctx) (ps : List (Str × Nat)) (n : Nat) (σ σ' : PState) (qs hs : List (Str × Nat)) : Prop where
  steps : Steps C ps σ σ' qs
  grow : Grows C.cfg.uid σ σ'
  index : σ'.refIndex ≤ σ.refIndex + 2 * n
  rep : ∀ τ : PState, Agrees C.cfg.uid σ' τ → σ'.refIndex < 2 ^ 32 →
    Rep C.cfg.uid τ (Spec.glue qs) (Spec.glue hs)
  nolist : ∀ q ∈ qs, containsStr t!"<p>notelist" q.1 = false

theorem piece_steps {C : Ctx} {base : Str} (D : DocCtx C base) {ok : Char → Prop} (ha : ∀ c, c.toNat < 128 → ok c) :
    ∀ {ds : List (Spec.Piece × Nat)}, ds ≠ [] → (∀ d ∈ ds, ∀ k t, d.1 = .list k t → Lowers C.U ok) →
    (∀ d ∈ ds, d.1.Ok C.U.isLu C.U.isNd C.cfg.lite) → (∀ d ∈ ds, ∀ c ∈ d.1.itemChars, ok c) →
    (∀ d ∈ ds, d.1.Resolved (Spec.Resolves C.E.urlParse C.E.urlJoin C.cfg.restricted) C.cfg.rel) → (∀ d ∈ ds, ¬ C.cfg.uid <:+: d.1.source) →
    ∀ {σ : PState} {N : Spec.Numbers}, Num N σ → σ.spanDepth + 1 ≤ C.cfg.maxSpanDepth →
    ∃ σ' qs, PiecesTo C (ds.map (fun d => (d.1.source, d.2))) (Spec.docMarks ds) σ σ' qs (docMid C.cfg.brTag N ds)
  | [], h, _, _, _, _, _, _, _, _, _ => absurd rfl h
  | [d], _, hL, h, hc, hR, ht, σ, N, hN, hd => by
    obtain ⟨σ', q, hq⟩ := piece_step D ha (hL d (by simp)) (h d (by simp)) (hc d (by simp)) (hR d (by simp)) (ht d (by simp)) hN hd
    refine ⟨σ', [(q, d.2)], .one hq.step, hq.grow.toGrows, ?_, hq.rep, by simpa using hq.nolist⟩
    have := hq.index; simpa [Spec.docMarks] using this
  | d :: e :: ds, _, hL, h, hc, hR, ht, σ, N, hN, hd => by
    obtain ⟨σ1, q, hq⟩ := piece_step D ha (hL d (by simp)) (h d (by simp)) (hc d (by simp)) (hR d (by simp)) (ht d (by simp)) hN hd
    obtain ⟨σ2, qs, hs⟩ := piece_steps D ha (ds := e :: ds) (by simp) (fun x hx => hL x (List.mem_cons_of_mem _ hx)) (fun x hx => h x (List.mem_cons_of_mem _ hx))
      (fun x hx => hc x (List.mem_cons_of_mem _ hx)) (fun x hx => hR x (List.mem_cons_of_mem _ hx)) (fun x hx => ht x (List.mem_cons_of_mem _ hx)) (σ := σ1) hq.num
      (by rw [hq.grow.depth]; exact hd)
    refine ⟨σ2, (q, d.2) :: qs, .cons hq.step hs.steps, hq.grow.toGrows.trans hs.grow, ?_, ?_, ?_⟩
    · have h1 := hs.index
      have h2 := hq.index
      simp only [Spec.docMarks, List.map_cons, List.sum_cons] at h1 ⊢
      omega
    · intro τ h1 h2
      have hi := hs.grow.index
      rw [docMid, glue_cons hs.steps.ne.2, glue_cons (by simp [docMid])]
      have hn : Rep C.cfg.uid τ (nls (d.2 + 2)) (nls (d.2 + 2)) := by
        have := (Rep.nil (uid := C.cfg.uid) (σ := τ)).text (w := nls (d.2 + 2)) (by simp [nls])
        simpa using this
      exact (hq.rep τ (h1.before0 hs.grow) (by omega)).append (hn.append (hs.rep τ h1 h2))
    · intro x hx
      rcases List.mem_cons.1 hx with rfl | hx
      · exact hq.nolist
      · exact hs.nolist x hx

/-! ## The beginning and the end of the conversion -/

theorem list_rawLines : ∀ {t : Spec.Items} {m s : Str}, m ≠ [] → (∀ c ∈ m, c ∈ t!"*#") → (∀ c ∈ s, c ∈ t!"0123456789_") →
    AllTexts linesA.Over t → AllTexts (fun t => '\n' ∉ t) t → ∀ l ∈ t.lines m s, Spec.RawLine l
  | .done, _, _, _, _, _, _, _, l, hl => by cases hl
  | .item a k sub next, m, s, h0, hm, hs, h, h', l, hl => by
    simp only [Spec.Items.lines, List.mem_cons, List.mem_append] at hl
    rcases hl with rfl | hl | hl
    · have key : ∀ c, c ∉ t!"*#" → c ∉ t!"0123456789_" → c ≠ ' ' → c ∉ a → c ∉ m ++ s ++ [' '] ++ a := by
        intro c h1 h2 h3 h4 hc
        simp only [List.mem_append, List.mem_singleton] at hc
        rcases hc with ((hc | hc) | hc) | hc
        · exact h1 (hm c hc)
        · exact h2 (hs c hc)
        · exact h3 hc
        · exact h4 hc
      refine ⟨key _ (by decide) (by decide) (by decide) h'.1, key _ (by decide) (by decide) (by decide) ?_, ?_⟩
      · exact fun hc => Alpha.not_mem (by decide) (by decide) (h.1 _ hc)
      · cases m with
        | nil => exact absurd rfl h0
        | cons c m =>
          exact blank_not ((by decide : ∀ c ∈ t!"*#", isWs c = false) c (hm c (by simp)))
    · refine list_rawLines (by simp) ?_ (fun c hc => suffix_mem hc) h.2.1 h'.2.1 l hl
      intro c hc
      rcases List.mem_append.1 hc with hc | hc
      · exact hm c hc
      · rw [List.mem_singleton.1 hc]; exact mark_mem k
    · exact list_rawLines h0 hm (fun c hc => (by cases hc)) h.2.2 h'.2.2 l hl

/-- Sources of blocks: lines with text, of certain characters. -/
theorem piece_lines {C : Ctx} {b : Spec.Piece} (h : b.Ok C.U.isLu C.U.isNd C.cfg.lite) :
    (∃ ls, ls ≠ [] ∧ (∀ l ∈ ls, Spec.RawLine l) ∧ b.source = Spec.join t!"\n" ls) ∧ ∃ c u, b.source = c :: u ∧ isWs c = false := by
  cases b with
  | rich b =>
    exact ⟨rich_lines h, (rich_lined h).2.2⟩
  | list k t =>
    obtain ⟨-, h2, h3, h4⟩ := h
    obtain ⟨g1, g2, g3⟩ := items_ok (ok := fun _ => True) h4 (by simp)
    have hm := mark_mem k
    obtain ⟨rest, hr⟩ := source_start (k := k) h3
    refine ⟨⟨_, ?_, list_rawLines (by simp) ?_ (fun c hc => suffix_mem hc) g2 (g1.all fun t ht => ht.nonl), rfl⟩,
      _, _, hr, (by decide : ∀ c ∈ t!"*#", isWs c = false) _ hm⟩
    · cases t with
      | done => exact absurd rfl h3
      | item => simp [Spec.Items.lines]
    · intro c hc; rw [List.mem_singleton.1 hc]; exact hm

/-- Escaping a document. -/
theorem escaped_piece {C : Ctx} (hU : UniOk C.U) {b : Spec.Piece} (h : b.Ok C.U.isLu C.U.isNd C.cfg.lite) :
    b.escaped.Ok C.U.isLu C.U.isNd C.cfg.lite ∧ encodeHtml b.source false false = b.escaped.source := by
  cases b with
  | rich b => exact escaped_rich hU h
  | list k t =>
    refine ⟨h, ?_⟩
    obtain ⟨-, -, -, h4⟩ := h
    obtain ⟨-, g2, -⟩ := items_ok (ok := fun _ => True) h4 (by simp)
    apply enc_id
    intro c hc hm
    have : ∀ c ∈ t!"&<>\"'", c ∉ srcA.ascii ∧ c.toNat < 128 := by decide
    exact Alpha.not_mem (this c hm).1 (this c hm).2 (source_over g2 _ hc)

theorem escaped_doc {C : Ctx} (hU : UniOk C.U) {ds : List (Spec.Piece × Nat)} (h : ∀ d ∈ ds, d.1.Ok C.U.isLu C.U.isNd C.cfg.lite) :
    (∀ d ∈ Spec.docEscaped ds, d.1.Ok C.U.isLu C.U.isNd C.cfg.lite) ∧
      encodeHtml (Spec.docSource ds) false false = Spec.docSource (Spec.docEscaped ds) := by
  refine ⟨?_, ?_⟩
  · intro d hd
    obtain ⟨e, he, rfl⟩ := List.mem_map.1 hd
    exact (escaped_piece hU (h e he)).1
  · rw [Spec.docSource, enc_glue, Spec.docSource, Spec.docEscaped]
    simp only [List.map_map]
    congr 1
    apply List.map_congr_left
    intro d hd
    simp only [Function.comp]
    rw [(escaped_piece hU (h d hd)).2]

theorem piece_infix {ds : List (Spec.Piece × Nat)} {d : Spec.Piece × Nat} (hd : d ∈ ds) : d.1.source <:+: Spec.docSource ds := by
  unfold Spec.docSource
  induction ds with
  | nil => cases hd
  | cons e ds ih =>
    rw [List.map_cons]
    rcases List.mem_cons.1 hd with rfl | hd
    · cases hm : ds.map (fun d => (d.1.source, d.2)) with
      | nil => exact List.infix_rfl
      | cons q ps => rw [glue_cons (by simp)]; exact (List.prefix_append _ _).isInfix
    · have hne : ds.map (fun d => (d.1.source, d.2)) ≠ [] := by
        intro e'; rw [List.map_eq_nil_iff] at e'; rw [e'] at hd; cases hd
      rw [glue_cons hne]
      exact (ih hd).trans ((List.suffix_append _ _).trans (List.suffix_append _ _)).isInfix

theorem prepare_doc {C : Ctx} {base : Str} (D : DocCtx C base) {ds : List (Spec.Piece × Nat)}
    (h : ∀ d ∈ ds, d.1.Ok C.U.isLu C.U.isNd C.cfg.lite) (htok : ¬ C.cfg.uid <:+: Spec.docSource ds) :
    prepare C (Spec.docSource ds) = Spec.docSource (Spec.docSeen C.cfg.restricted ds) ∧
      (∀ p ∈ (Spec.docSeen C.cfg.restricted ds).map (fun d => (d.1.source, d.2)), Chunk p.1) ∧
      (∀ d ∈ Spec.docSeen C.cfg.restricted ds, d.1.Ok C.U.isLu C.U.isNd C.cfg.lite) ∧
      ¬ C.cfg.uid <:+: Spec.docSource (Spec.docSeen C.cfg.restricted ds) := by
  have hseen : (if C.cfg.restricted then encodeHtml (Spec.docSource ds) false false else Spec.docSource ds) =
      Spec.docSource (Spec.docSeen C.cfg.restricted ds) := by
    unfold Spec.docSeen
    split
    · exact (escaped_doc D.uni h).2
    · rfl
  have hok : ∀ d ∈ Spec.docSeen C.cfg.restricted ds, d.1.Ok C.U.isLu C.U.isNd C.cfg.lite := by
    unfold Spec.docSeen
    split
    · exact (escaped_doc D.uni h).1
    · exact h
  have htok' : containsStr C.cfg.uid (Spec.docSource (Spec.docSeen C.cfg.restricted ds)) = false := by
    have h0 : containsStr C.cfg.uid (Spec.docSource ds) = false := by
      rw [← Bool.not_eq_true, containsStr_iff]
      rintro ⟨a, b, e⟩
      exact htok ⟨a, b, by rw [e]; simp⟩
    rw [← hseen]
    split
    · obtain ⟨c1, c2, -, -, -, -, c7, -⟩ := uid_chars D.plain
      rw [D.uid] at h0 ⊢
      exact containsStr_enc c1 c2 c7 h0
    · exact h0
  have hl : ∀ p ∈ (Spec.docSeen C.cfg.restricted ds).map (fun d => (d.1.source, d.2)),
      ∃ ls, ls ≠ [] ∧ (∀ l ∈ ls, Spec.RawLine l) ∧ p.1 = Spec.join t!"\n" ls := by
    intro p hp
    obtain ⟨d, hd, rfl⟩ := List.mem_map.1 hp
    exact (piece_lines (hok d hd)).1
  obtain ⟨h1, h2⟩ := normalize_lines (U := C.U) hl
  refine ⟨?_, h2, hok, ?_⟩
  · unfold prepare
    simp only
    rw [hseen, Spec.docSource, h1, replaceStr_none]
    exact htok'
  · rintro ⟨a, b, e⟩
    rw [containsStr_iff.2 (⟨a, b, by rw [← e]; simp⟩ : ∃ a b, Spec.docSource (Spec.docSeen C.cfg.restricted ds) = a ++ (C.cfg.uid ++ b))] at htok'
    cases htok'

/-- Blocks with the numbers before them. -/
theorem doc_threaded (br : Str) : ∀ (ds : List (Spec.Piece × Nat)) (N : Spec.Numbers), ∃ es : List (Spec.Numbers × Spec.Piece × Nat),
    (∀ e ∈ es, e.2 ∈ ds) ∧ docMid br N ds = es.map (fun e => (pieceMid br e.1 e.2.1, e.2.2)) ∧
      Spec.pieceHtml br N ds = es.map (fun e => (e.2.1.html br e.1, e.2.2))
  | [], N => ⟨[], by simp, rfl, rfl⟩
  | d :: ds, N => by
    obtain ⟨es, h1, h2, h3⟩ := doc_threaded br ds (d.1.numbers N)
    refine ⟨(N, d) :: es, ?_, by simp [docMid, h2], by simp [Spec.pieceHtml, h3]⟩
    intro e he
    rcases List.mem_cons.1 he with rfl | he
    · simp
    · exact List.mem_cons_of_mem _ (h1 e he)

theorem piece_turns {C : Ctx} (hU : UniOk C.U) {N : Spec.Numbers} {b : Spec.Piece} (h : b.Ok C.U.isLu C.U.isNd C.cfg.lite) :
    Turns (Spec.tidyBreaks C.cfg.brTag) (pieceMid C.cfg.brTag N b) (b.html C.cfg.brTag N) ∧
    (b.html C.cfg.brTag N ≠ [] ∧ (b.html C.cfg.brTag N).getLast? ≠ some '\n') := by
  cases b with
  | rich b => exact ⟨rich_turns h, rich_end b⟩
  | list k t =>
    obtain ⟨-, -, -, h4⟩ := h
    have hp := list_pieces hU (k := k) (N := N) (items_ok (ok := fun _ => True) h4 (by simp)).2.2
    refine ⟨fun r _ => tidyBreaks_free (hp.free (by decide)), ⟨?_, ?_⟩⟩
    · intro e
      have := list_last (k := k) (t := t) (N := N)
      simp only [Spec.Piece.html] at e
      rw [e] at this; cases this
    · simp only [Spec.Piece.html]
      rw [list_last]; simp

theorem finish_pieces {C : Ctx} (hU : UniOk C.U) {ds : List (Spec.Piece × Nat)} (hsan : C.cfg.sanitizer = none)
    (h : ∀ d ∈ ds, d.1.Ok C.U.isLu C.U.isNd C.cfg.lite) (N : Spec.Numbers) :
    finish C (Spec.glue (docMid C.cfg.brTag N ds)) = Spec.glue (Spec.pieceHtml C.cfg.brTag N ds) := by
  obtain ⟨es, h1, h2, h3⟩ := doc_threaded C.cfg.brTag ds N
  rw [h2, h3, finish_eq, hsan]
  simp only
  rw [(tidy_local C.cfg.brTag).glue (f := fun e : Spec.Numbers × Spec.Piece × Nat => pieceMid C.cfg.brTag e.1 e.2.1)
    (g := fun e => e.2.1.html C.cfg.brTag e.1) (m := fun e => e.2.2) (fun e he => (piece_turns hU (h e.2 (h1 e he))).1),
    ← dropFinalNewlines_eq]
  apply trimEndP_of_last
  intro c hc
  have := glue_last (ps := es.map (fun e => (e.2.1.html C.cfg.brTag e.1, e.2.2))) (by
    intro p hp
    obtain ⟨e, he, rfl⟩ := List.mem_map.1 hp
    exact (piece_turns hU (h e.2 (h1 e he))).2)
  rw [hc] at this
  simpa using this

theorem doc_nonblank {C : Ctx} {ds : List (Spec.Piece × Nat)} (hne : ds ≠ [])
    (h : ∀ d ∈ ds, d.1.Ok C.U.isLu C.U.isNd C.cfg.lite) : ¬ Spec.Blank (Spec.docSource ds) := by
  cases ds with
  | nil => exact absurd rfl hne
  | cons d ds =>
    obtain ⟨-, c, u, e, hc⟩ := piece_lines (h d (by simp))
    intro hbl
    have hm : c ∈ Spec.docSource (d :: ds) := by
      rw [Spec.docSource, List.map_cons]
      cases hd : ds.map (fun d => (d.1.source, d.2)) with
      | nil => rw [Spec.glue, e]; simp
      | cons q ps => rw [glue_cons (by simp), e]; simp
    have := (isWs_iff c).2 (hbl c hm)
    rw [hc] at this; cases this

/-- The whole conversion of a document with inline markup and lists. -/
theorem parse_pieces {E : Env} {fuel : Nat} {cfg : Cfg} {base : Str} (D : DocCtx ⟨E, cfg, fuel⟩ base)
    (hbt : cfg.blockTags = true) (hsan : cfg.sanitizer = none) (hdep : 1 ≤ cfg.maxSpanDepth) {ok : Char → Prop}
    (ha : ∀ c, c.toNat < 128 → ok c) {ds : List (Spec.Piece × Nat)} (hL : ∀ d ∈ ds, ∀ k t, d.1 = .list k t → Lowers E.U ok)
    (hne : ds ≠ []) (h : ∀ d ∈ ds, d.1.Ok E.U.isLu E.U.isNd cfg.lite) (hc : ∀ d ∈ ds, ∀ c ∈ d.1.itemChars, ok c)
    (hR : ∀ d ∈ ds, d.1.Resolved (Spec.Resolves E.urlParse E.urlJoin cfg.restricted) cfg.rel)
    (htok : ¬ cfg.uid <:+: Spec.docSource ds) (hn : 2 * Spec.docMarks ds < 2 ^ 32) :
    parseFresh E fuel cfg (Spec.docSource ds) = .ok (Spec.docHtml cfg.brTag (Spec.docSeen cfg.restricted ds)) := by
  obtain ⟨p1, p2, p3, p4⟩ := prepare_doc D h htok
  have hne' : Spec.docSeen cfg.restricted ds ≠ [] := by
    unfold Spec.docSeen Spec.docEscaped; split <;> simp [hne]
  have hc' : ∀ d ∈ Spec.docSeen cfg.restricted ds, ∀ c ∈ d.1.itemChars, ok c := by
    unfold Spec.docSeen Spec.docEscaped
    split
    · intro d hd
      obtain ⟨e, he, rfl⟩ := List.mem_map.1 hd
      have := hc e he
      intro c hm
      apply this
      cases he' : e.1 <;> simp [he', Spec.Piece.escaped, Spec.Piece.itemChars] at hm ⊢
      exact hm
    · exact hc
  have hn' : Spec.docMarks (Spec.docSeen cfg.restricted ds) = Spec.docMarks ds := by
    unfold Spec.docSeen Spec.docEscaped Spec.docMarks
    split
    · simp only [List.map_map]
      congr 1
      apply List.map_congr_left
      intro d _
      simp only [Function.comp]
      cases d.1 with
      | rich b => cases b <;> simp [Spec.Piece.escaped, Spec.Piece.marks, Spec.Rich.escaped, Spec.Rich.body, Spec.Marked.escaped]
      | list k t => rfl
    · rfl
  have hL' : ∀ d ∈ Spec.docSeen cfg.restricted ds, ∀ k t, d.1 = .list k t → Lowers E.U ok := by
    unfold Spec.docSeen Spec.docEscaped
    split
    · intro d hd k t he
      obtain ⟨e, he', rfl⟩ := List.mem_map.1 hd
      refine hL e he' k t ?_
      cases e' : e.1 <;> simp [e', Spec.Piece.escaped] at he ⊢
      exact he
    · exact hL
  have hR' : ∀ d ∈ Spec.docSeen cfg.restricted ds, d.1.Resolved (Spec.Resolves E.urlParse E.urlJoin cfg.restricted) cfg.rel := by
    unfold Spec.docSeen Spec.docEscaped
    split
    · intro d hd
      obtain ⟨e, he, rfl⟩ := List.mem_map.1 hd
      have := hR e he
      cases he' : e.1 with
      | rich b => rw [he'] at this; exact rich_resolved this
      | list k t => trivial
    · exact hR
  obtain ⟨σ, qs, hs⟩ := piece_steps D ha hne' hL' p3 hc' hR' (fun d hd hi => p4 (hi.trans (piece_infix hd)))
    (σ := {}) (N := fun _ => 1) (fun _ => rfl) (by exact hdep)
  refine parse_steps hbt (doc_nonblank (C := ⟨E, cfg, fuel⟩) hne h) p1 hs.steps p2
    (not_contains_glue (by decide) (by simp) hs.nolist)
    (runs_tags D (ShelfInv.ok (σ := { σ with aux := splitNotes σ.aux }) (hs.grow.inv (ShelfInv.empty rfl)))
      (by have := hs.grow.urls; simp only [splitNotes]; split <;> exact this)
      (hs.rep { σ with aux := splitNotes σ.aux } (fun _ _ => ⟨rfl, rfl⟩) ?_))
    (finish_pieces (C := ⟨E, cfg, fuel⟩) D.uni hsan p3 _)
  have := hs.index
  rw [hn'] at this
  exact Nat.lt_of_le_of_lt this (by simpa using hn)

/-- Documents without lists. -/
theorem parse_rich {E : Env} {fuel : Nat} {cfg : Cfg} {base : Str} (D : DocCtx ⟨E, cfg, fuel⟩ base)
    (hbt : cfg.blockTags = true) (hsan : cfg.sanitizer = none) (hdep : 1 ≤ cfg.maxSpanDepth) {ds : List (Spec.Rich × Nat)}
    (hne : ds ≠ []) (h : ∀ d ∈ ds, d.1.Ok E.U.isLu E.U.isNd cfg.lite)
    (hR : ∀ d ∈ ds, d.1.body.Resolved (Spec.Resolves E.urlParse E.urlJoin cfg.restricted) cfg.rel)
    (htok : ¬ cfg.uid <:+: Spec.richSource ds) (hn : 2 * Spec.richCount ds < 2 ^ 32) :
    parseFresh E fuel cfg (Spec.richSource ds) = .ok (Spec.richHtml cfg.brTag (Spec.richSeen cfg.restricted ds)) := by
  have e1 : Spec.docSource (ds.map (fun d => (.rich d.1, d.2))) = Spec.richSource ds := by
    simp [Spec.docSource, Spec.richSource, Spec.Piece.source, Function.comp_def]
  have e2 : ∀ (br : Str) (N : Spec.Numbers) (ds : List (Spec.Rich × Nat)),
      Spec.pieceHtml br N (ds.map (fun d => (.rich d.1, d.2))) = ds.map (fun d => (d.1.html br, d.2)) := by
    intro br N ds
    induction ds with
    | nil => rfl
    | cons d ds ih => rw [List.map_cons, Spec.pieceHtml]; simp only [Spec.Piece.numbers]; rw [ih]; rfl
  have e3 : Spec.docSeen cfg.restricted (ds.map (fun d => (Spec.Piece.rich d.1, d.2))) =
      (Spec.richSeen cfg.restricted ds).map (fun d => (.rich d.1, d.2)) := by
    unfold Spec.docSeen Spec.docEscaped Spec.richSeen
    split <;> simp [Spec.Piece.escaped]
  have := parse_pieces D hbt hsan hdep (ok := fun _ => True) (fun _ _ => trivial) (ds := ds.map (fun d => (.rich d.1, d.2)))
    (by intro d hd k t e
        obtain ⟨x, hx, rfl⟩ := List.mem_map.1 hd
        cases e)
    (by simpa using hne)
    (by intro d hd
        obtain ⟨x, hx, rfl⟩ := List.mem_map.1 hd
        exact h x hx)
    (fun _ _ _ _ => trivial)
    (by intro d hd
        obtain ⟨x, hx, rfl⟩ := List.mem_map.1 hd
        exact hR x hx) (by rw [e1]; exact htok)
    (by simpa [Spec.docMarks, Spec.Piece.marks, Spec.richCount, Function.comp_def] using hn)
  rw [e1, e3, Spec.docHtml, e2] at this
  exact this

end Rustextile
