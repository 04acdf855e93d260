import Verif.ListDoc

/-!
# Documents of blocks of any kind

What must be known of a kind of blocks in order to know what becomes of documents with
such blocks.
-/

namespace Rustextile

open Prog

/-- What a block does in a state that satisfies `P`: it is rendered as `h`, takes at most `2 * n`
numbers, and leaves a state that satisfies `P'`. -/
structure Act (C : Ctx) (P P' : PState → Prop) (src : Str) (n : Nat) (h : Str) : Prop where
  lines : ∃ ls, ls ≠ [] ∧ (∀ l ∈ ls, Spec.RawLine l) ∧ src = Spec.join t!"\n" ls
  first : ∃ c u, src = c :: u ∧ isWs c = false
  run : ∀ σ : PState, P σ → σ.spanDepth + 1 ≤ C.cfg.maxSpanDepth → ∃ σ' q mid, StepTo C src σ σ' q ∧ Grows C.cfg.uid σ σ' ∧ P' σ' ∧
    σ'.refIndex ≤ σ.refIndex + 2 * n ∧
    (∀ τ : PState, Agrees C.cfg.uid σ' τ → σ'.refIndex < 2 ^ 32 → Rep C.cfg.uid τ q mid) ∧
    containsStr t!"<p>notelist" q = false ∧ Turns (Spec.tidyBreaks C.cfg.brTag) mid h
  ending : h ≠ [] ∧ h.getLast? ≠ some '\n'

/-- The same for the blocks of a document, each with the number of newlines after it. -/
inductive Acts (C : Ctx) : (PState → Prop) → List (Str × Nat) → Nat → List (Str × Nat) → Prop
  | one {P P' : PState → Prop} {s h : Str} {n k : Nat} : Act C P P' s n h → Acts C P [(s, k)] n [(h, k)]
  | cons {P P' : PState → Prop} {s h : Str} {n m k : Nat} {ss hs : List (Str × Nat)} : Act C P P' s n h → Acts C P' ss m hs →
    Acts C P ((s, k) :: ss) (n + m) ((h, k) :: hs)

theorem Acts.ne {C : Ctx} {P : PState → Prop} {ss hs : List (Str × Nat)} {n : Nat} (h : Acts C P ss n hs) : ss ≠ [] ∧ hs ≠ [] := by
  cases h <;> simp

theorem Acts.lines {C : Ctx} {P : PState → Prop} {ss hs : List (Str × Nat)} {n : Nat} (h : Acts C P ss n hs) :
    ∀ p ∈ ss, ∃ ls, ls ≠ [] ∧ (∀ l ∈ ls, Spec.RawLine l) ∧ p.1 = Spec.join t!"\n" ls := by
  induction h with
  | one a => intro p hp; rw [List.mem_singleton] at hp; subst hp; exact a.lines
  | cons a _ ih =>
    intro p hp
    rcases List.mem_cons.1 hp with rfl | hp
    · exact a.lines
    · exact ih p hp

theorem Acts.ending {C : Ctx} {P : PState → Prop} {ss hs : List (Str × Nat)} {n : Nat} (h : Acts C P ss n hs) :
    ∀ p ∈ hs, p.1 ≠ [] ∧ p.1.getLast? ≠ some '\n' := by
  induction h with
  | one a => intro p hp; rw [List.mem_singleton] at hp; subst hp; exact a.ending
  | cons a _ ih =>
    intro p hp
    rcases List.mem_cons.1 hp with rfl | hp
    · exact a.ending
    · exact ih p hp

/-- Texts, the same texts with newlines after break tags, and numbers of newlines between them. -/
inductive Tidied (br : Str) : List (Str × Nat) → List (Str × Nat) → Prop
  | nil : Tidied br [] []
  | cons {a b : Str} {k : Nat} {as bs : List (Str × Nat)} : Turns (Spec.tidyBreaks br) a b → Tidied br as bs →
    Tidied br ((a, k) :: as) ((b, k) :: bs)

theorem Tidied.glue {br : Str} {as bs : List (Str × Nat)} (h : Tidied br as bs) :
    Spec.tidyBreaks br (Spec.glue as) = Spec.glue bs := by
  obtain ⟨es, h1, h2, h3⟩ : ∃ es : List (Str × Str × Nat), as = es.map (fun e => (e.1, e.2.2)) ∧ bs = es.map (fun e => (e.2.1, e.2.2)) ∧
      ∀ e ∈ es, Turns (Spec.tidyBreaks br) e.1 e.2.1 := by
    induction h with
    | nil => exact ⟨[], rfl, rfl, by simp⟩
    | cons t _ ih =>
      obtain ⟨es, rfl, rfl, h3⟩ := ih
      exact ⟨(_, _, _) :: es, rfl, rfl, by
        intro e he
        rcases List.mem_cons.1 he with rfl | he
        · exact t
        · exact h3 e he⟩
  rw [h1, h2]
  exact (tidy_local br).glue h3

theorem Acts.run {C : Ctx} {P : PState → Prop} {ss hs : List (Str × Nat)} {n : Nat} (h : Acts C P ss n hs) :
    ∀ σ : PState, P σ → σ.spanDepth + 1 ≤ C.cfg.maxSpanDepth → ∃ σ' qs mids, PiecesTo C ss n σ σ' qs mids ∧ mids ≠ [] ∧
      Tidied C.cfg.brTag mids hs := by
  induction h with
  | one a =>
    intro σ hP hd
    obtain ⟨σ', q, mid, h1, h2, h3, h4, h5, h6, h7⟩ := a.run σ hP hd
    exact ⟨σ', [(q, _)], [(mid, _)], ⟨.one h1, h2, h4, h5, by simpa using h6⟩, by simp, .cons h7 .nil⟩
  | cons a _ ih =>
    rename_i s h n m k ss hs _
    intro σ hP hd
    obtain ⟨σ1, q, mid, h1, h2, h3, h4, h5, h6, h7⟩ := a.run σ hP hd
    obtain ⟨σ2, qs, mids, hs, hm, ht⟩ := ih σ1 h3 (by rw [h2.depth]; exact hd)
    refine ⟨σ2, (q, k) :: qs, (mid, k) :: mids, ⟨.cons h1 hs.steps, h2.trans hs.grow, ?_, ?_, ?_⟩, by simp, .cons h7 ht⟩
    · have := hs.index; omega
    · intro τ g1 g2
      have hi := hs.grow.index
      rw [glue_cons hs.steps.ne.2, glue_cons hm]
      have hn : Rep C.cfg.uid τ (nls (k + 2)) (nls (k + 2)) := by
        have := (Rep.nil (uid := C.cfg.uid) (σ := τ)).text (w := nls (k + 2)) (by simp [nls])
        simpa using this
      exact (h5 τ (g1.before0 hs.grow) (by omega)).append (hn.append (hs.rep τ g1 g2))
    · intro x hx
      rcases List.mem_cons.1 hx with rfl | hx
      · exact h6
      · exact hs.nolist x hx

theorem Acts.nonblank {C : Ctx} {P : PState → Prop} {ss hs : List (Str × Nat)} {n : Nat} (h : Acts C P ss n hs) :
    ∃ c u, Spec.glue ss = c :: u ∧ isWs c = false := by
  cases h with
  | one a => exact a.first
  | cons a as =>
    obtain ⟨c, u, rfl, hc⟩ := a.first
    exact ⟨c, _, by rw [glue_cons as.ne.1]; rfl, hc⟩

/-- What the block parser is given. -/
theorem prepared {E : Env} {fuel : Nat} {cfg : Cfg} {base : Str} (D : DocCtx ⟨E, cfg, fuel⟩ base) {text : Str} {ss : List (Str × Nat)}
    (hl : ∀ p ∈ ss, ∃ ls, ls ≠ [] ∧ (∀ l ∈ ls, Spec.RawLine l) ∧ p.1 = Spec.join t!"\n" ls) (hf : ∃ c u, Spec.glue ss = c :: u ∧ isWs c = false)
    (hseen : (if cfg.restricted then encodeHtml text false false else text) = Spec.glue ss) (htok : ¬ cfg.uid <:+: text) :
    prepare ⟨E, cfg, fuel⟩ text = Spec.glue ss ∧ ¬ Spec.Blank text ∧ ∀ p ∈ ss, Chunk p.1 := by
  obtain ⟨h1, h2⟩ := normalize_lines (U := E.U) hl
  have htok' : containsStr cfg.uid (Spec.glue ss) = false := by
    have h0 : containsStr cfg.uid text = false := by
      rw [← Bool.not_eq_true, containsStr_iff]
      rintro ⟨a, b, e⟩
      exact htok ⟨a, b, by rw [e]; simp⟩
    rw [← hseen]
    split
    · obtain ⟨c1, c2, -, -, -, -, c7, -⟩ := uid_chars D.plain
      have := D.uid
      simp only at this
      rw [this] at h0 ⊢
      exact containsStr_enc c1 c2 c7 h0
    · exact h0
  have hprep : prepare ⟨E, cfg, fuel⟩ text = Spec.glue ss := by
    unfold prepare
    simp only
    rw [hseen]
    have h1 : normalizeNewlines E.U (Spec.glue ss) = _ := h1
    rw [show (Ctx.U ⟨E, cfg, fuel⟩) = E.U from rfl, h1, replaceStr_none htok']
  have hbl : ¬ Spec.Blank text := by
    obtain ⟨c, u, e, hc⟩ := hf
    rw [← hseen] at e
    have : ∃ c ∈ text, isWs c = false := by
      revert e
      split
      · intro e
        cases ht : text with
        | nil => rw [ht] at e; cases e
        | cons x t =>
          obtain ⟨d, v, e', hd⟩ := enc_first (c := x) (t := t)
          rw [ht, e'] at e
          injection e with e1 e2
          subst e1
          rcases hd with rfl | rfl
          · exact ⟨d, by simp, hc⟩
          · cases hw : isWs x with
            | false => exact ⟨x, by simp, hw⟩
            | true =>
              exfalso
              rcases entity_chars (q := false) (c := x) with e3 | ⟨e4, e3, -⟩
              · rw [enc_cons, e3] at e'
                simp at e'
                rw [e'.1] at hw; revert hw; decide
              · have : encodeHtml [x] false false = [x] := by
                  apply enc_id
                  intro y hy hm
                  rw [List.mem_singleton] at hy
                  subst hy
                  have : ∀ y ∈ t!"&<>\"'", isWs y = false := by decide
                  rw [this y hm] at hw; cases hw
                rw [show encodeHtml [x] false false = encChar false false x by simp [encodeHtml], e3] at this
                simp at this
      · intro e; exact ⟨c, by rw [e]; simp, hc⟩
    obtain ⟨c, hm, hc⟩ := this
    intro hb
    have := (isWs_iff c).2 (hb c hm)
    rw [hc] at this; cases this
  exact ⟨hprep, hbl, h2⟩

/-- The whole conversion of a document. -/
theorem parse_acts {E : Env} {fuel : Nat} {cfg : Cfg} {base : Str} (D : DocCtx ⟨E, cfg, fuel⟩ base)
    (hbt : cfg.blockTags = true) (hsan : cfg.sanitizer = none) (hdep : 1 ≤ cfg.maxSpanDepth) {P : PState → Prop} (hP : P {})
    {text : Str} {ss hs : List (Str × Nat)} {n : Nat} (h : Acts ⟨E, cfg, fuel⟩ P ss n hs)
    (hseen : (if cfg.restricted then encodeHtml text false false else text) = Spec.glue ss)
    (htok : ¬ cfg.uid <:+: text) (hn : 2 * n < 2 ^ 32) : parseFresh E fuel cfg text = .ok (Spec.glue hs) := by
  obtain ⟨hprep, hbl, h2⟩ := prepared D h.lines h.nonblank hseen htok
  obtain ⟨σ, qs, mids, hr, -, ht⟩ := h.run {} hP hdep
  refine parse_steps hbt hbl hprep hr.steps h2 (not_contains_glue (by decide) (by simp) hr.nolist)
    (runs_tags D (ShelfInv.ok (σ := { σ with aux := splitNotes σ.aux }) (hr.grow.inv (ShelfInv.empty rfl)))
      (by have := hr.grow.urls; simp only [splitNotes]; split <;> exact this)
      (hr.rep { σ with aux := splitNotes σ.aux } (fun _ _ => ⟨rfl, rfl⟩) ?_)) ?_
  · have := hr.index
    exact Nat.lt_of_le_of_lt this (by simpa using hn)
  · rw [finish_eq, show (⟨E, cfg, fuel⟩ : Ctx).cfg.sanitizer = none from hsan]
    simp only
    rw [ht.glue, ← dropFinalNewlines_eq]
    apply trimEndP_of_last
    intro c hc
    have := glue_last h.ending
    rw [hc] at this
    simpa using this

/-- Paragraphs, headings, quotations and lists. -/
theorem act_piece {C : Ctx} {base : Str} (D : DocCtx C base) {ok : Char → Prop} (ha : ∀ c, c.toNat < 128 → ok c)
    {b : Spec.Piece} (hL : ∀ k t, b = .list k t → Lowers C.U ok) (h : b.Ok C.U.isLu C.U.isNd C.cfg.lite) (hc : ∀ c ∈ b.itemChars, ok c)
    (hR : b.Resolved (Spec.Resolves C.E.urlParse C.E.urlJoin C.cfg.restricted) C.cfg.rel)
    (htok : ¬ C.cfg.uid <:+: b.source) (N : Spec.Numbers) {Q : PState → Prop} (hQ : ∀ σ σ', Keeps σ σ' → Q σ → Q σ') :
    Act C (fun σ => Num N σ ∧ Q σ) (fun σ => Num (b.numbers N) σ ∧ Q σ) b.source b.marks (b.html C.cfg.brTag N) where
  lines := (piece_lines h).1
  first := (piece_lines h).2
  run := by
    intro σ hP hd
    obtain ⟨σ', q, hq⟩ := piece_step D ha hL h hc hR htok hP.1 hd
    exact ⟨σ', q, _, hq.step, hq.grow.toGrows, ⟨hq.num, hQ _ _ (hq.grow.keeps hq.rest) hP.2⟩, hq.index, hq.rep, hq.nolist, (piece_turns D.uni h).1⟩
  ending := (piece_turns D.uni h).2

end Rustextile
