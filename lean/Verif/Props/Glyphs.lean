import Verif.RegexLazy
import Verif.RegexCaps
import Verif.Props.Whole
import Verif.Demo

/-!
# Typographic replacement does not touch tags: C43
-/

namespace Rustextile

theorem glyph_at (U : Uni) (pre t : Str) :
    (∃ g r, t = g ++ r ∧ Spec.Tag U.isWord g ∧
      GLYPH_SPLIT_RE.matchAt U ⟨pre, t⟩ = some (⟨g.reverse ++ pre, r⟩, [(1, g)])) ∨
    ((∀ g r, t = g ++ r → ¬ Spec.Tag U.isWord g) ∧ GLYPH_SPLIT_RE.matchAt U ⟨pre, t⟩ = none) := by
  have hset : ∀ x, evalSet U false [.cls .word, .chr '/', .chr '!', .chr '?'] x = true ↔
      (U.isWord x = true ∨ x ∈ ['/', '!', '?']) := by
    intro x
    simp only [evalSet, List.any_cons, List.any_nil, Item.eval_chr]
    simp [Item.eval, UC.eval]
  have hnl : ∀ x, evalSet U true [.chr '\n'] x = true ↔ x ≠ '\n' := by
    intro x
    simp [evalSet, Item.eval_chr]
  rw [show GLYPH_SPLIT_RE = .grp 1 (.seq (.set false [.chr '<']) (.seq (.set false [.cls .word, .chr '/', .chr '!', .chr '?'])
    (.seq (.star false (.set true [.chr '\n'])) (.set false [.chr '>'])))) from rfl]
  match t with
  | [] =>
    right
    refine ⟨?_, ?_⟩
    · rintro g r e ⟨x, b, rfl, -⟩; simp at e
    · rw [Re.matchAt_none]; rfl
  | [c] =>
    right
    refine ⟨?_, ?_⟩
    · rintro g r e ⟨x, b, rfl, -⟩; simp at e
    · rw [Re.matchAt_none]
      show List.map _ _ = []
      rw [all_seq_set_cons, all_seq_set_nil]
      simp
  | c :: x :: u =>
    have key : (Re.grp 1 (.seq (.set false [.chr '<']) (.seq (.set false [.cls .word, .chr '/', .chr '!', .chr '?'])
      (.seq (.star false (.set true [.chr '\n'])) (.set false [.chr '>']))))).all U ⟨pre, c :: x :: u⟩ [] =
      if c = '<' ∧ (U.isWord x = true ∨ x ∈ ['/', '!', '?']) then
        ((Re.seq (.star false (.set true [.chr '\n'])) (.set false [.chr '>'])).all U ⟨x :: c :: pre, u⟩ []).map
          (fun p => (p.1, (1, between ⟨pre, c :: x :: u⟩ p.1) :: p.2))
      else [] := by
      show List.map _ _ = _
      rw [all_seq_set_cons, all_seq_set_cons]
      rw [evalSet_chr]
      by_cases h1 : c = '<'
      · subst h1
        by_cases h2 : U.isWord x = true ∨ x ∈ ['/', '!', '?']
        · rw [if_pos (hset x |>.2 h2), if_pos (by simp), if_pos ⟨rfl, h2⟩]
        · rw [if_neg (fun h => h2 ((hset x).1 h)), if_neg (c := _ ∧ _) (fun h => h2 h.2)]; simp
      · rw [if_neg (c := (c == '<') = true) (by simpa using h1), if_neg (fun h => h1 h.1)]; rfl
    by_cases hc : c = '<' ∧ (U.isWord x = true ∨ x ∈ ['/', '!', '?'])
    · rw [if_pos hc] at key
      obtain ⟨rfl, hx⟩ := hc
      rcases all_lazy_until (U := U) (n := true) (it := [.chr '\n']) (d := '>') (s := []) u (x :: '<' :: pre) with
        ⟨b, r, l, e, h1, h2, h3⟩ | ⟨h1, h2⟩
      · left
        refine ⟨'<' :: x :: (b ++ ['>']), r, by simp [e], ⟨x, b, rfl, hx, h1, fun h => (hnl _).1 (h2 _ h) rfl⟩, ?_⟩
        rw [Re.matchAt_eq, key, h3]
        have a : Adv ⟨pre, '<' :: x :: u⟩ ('<' :: x :: (b ++ ['>'])) ⟨'>' :: (b.reverse ++ (x :: '<' :: pre)), r⟩ :=
          ⟨by simp [e], by simp⟩
        simp only [List.map_cons, List.head?_cons, a.between]
        simp
      · right
        refine ⟨?_, by rw [Re.matchAt_none, key, h2]; rfl⟩
        rintro g r e ⟨y, b, rfl, -, hb1, hb2⟩
        simp only [List.cons_append, List.cons.injEq, List.append_assoc, List.nil_append] at e
        obtain ⟨z, hz, hzz⟩ := h1 b r e.2.2
        rw [(hnl z).2 (fun h => hb2 (h ▸ hz))] at hzz
        cases hzz
    · right
      rw [if_neg hc] at key
      refine ⟨?_, by rw [Re.matchAt_none, key]⟩
      rintro g r e ⟨y, b, rfl, h, -, -⟩
      simp only [List.cons_append, List.cons.injEq] at e
      exact hc ⟨e.1, e.2.1 ▸ h⟩

theorem glyph_none {U : Uni} {pre t : Str} (h : GLYPH_SPLIT_RE.matchAt U ⟨pre, t⟩ = none) :
    ∀ g r, t = g ++ r → ¬ Spec.Tag U.isWord g := by
  rcases glyph_at U pre t with ⟨g, r, -, -, e⟩ | ⟨h1, -⟩
  · rw [h] at e; cases e
  · exact h1

theorem Tag.ne {word : Char → Bool} {g : Str} (h : Spec.Tag word g) : g ≠ [] := by
  obtain ⟨x, b, rfl, -⟩ := h; simp

theorem cut_of_segs {U : Uni} {pre t tail : Str} {ms : List Mat} (h : Segs U GLYPH_SPLIT_RE pre t ms tail) :
    Spec.Cut U.isWord t (ms.map (fun m => (m.gap, m.whole))) tail ∧ ∀ m ∈ ms, m.grp 1 = m.whole := by
  induction h with
  | @done pre rest h =>
    refine ⟨⟨by simp, by simp, by simp, ?_⟩, by simp⟩
    rintro a g b rfl hg
    have := Re.search_none_iff.1 h a ⟨a.reverse ++ pre, g ++ b⟩ ⟨rfl, rfl⟩
    exact glyph_none this g b rfl hg
  | @hit pre gap whole rest tail caps ms hs hm hw h ih =>
    obtain ⟨⟨i1, i2, i3, i4⟩, i5⟩ := ih
    rcases glyph_at U (gap.reverse ++ pre) (whole ++ rest) with ⟨g, r, e, hg, hm2⟩ | ⟨-, hm2⟩
    · rw [hm] at hm2
      simp only [Option.some.injEq, Prod.mk.injEq, Cur.mk.injEq] at hm2
      obtain ⟨⟨e1, rfl⟩, rfl⟩ := hm2
      obtain rfl : whole = g := by
        have := List.append_cancel_right e; exact this
      refine ⟨⟨by simp [i1], ?_, ?_, i4⟩, ?_⟩
      · simp only [List.map_cons, List.mem_cons, forall_eq_or_imp]; exact ⟨hg, i2⟩
      · intro p hp
        simp only [List.map_cons, List.mem_cons] at hp
        rcases hp with rfl | hp
        · intro a g b e hg
          refine Decidable.byContradiction fun hl => ?_
          simp only at hl e
          obtain ⟨v, rfl⟩ : ∃ v, gap = a ++ v := by
            rcases List.append_eq_append_iff.1 e with ⟨c, rfl, -⟩ | ⟨c, rfl, -⟩
            · simp at hl
            · exact ⟨c, rfl⟩
          cases v with
          | nil => simp at hl
          | cons x v =>
            have := hs a x v rfl
            refine glyph_none this g (b ++ rest) ?_ hg
            simp only [List.append_assoc, List.append_cancel_left_eq] at e
            rw [← List.append_assoc (x :: v), e]; simp
        · exact i3 p hp
      · intro m hm
        simp only [List.mem_cons] at hm
        rcases hm with rfl | hm
        · simp [Mat.grp, Mat.get?, alLookup]
        · exact i5 m hm
    · rw [hm] at hm2; cases hm2

theorem glyphPieces_eq (C : Ctx) (tail : Str) : ∀ ms : List Mat, (∀ m ∈ ms, m.grp 1 = m.whole) →
    concat (glyphPieces C true (ms.flatMap (fun m => m.gap :: (List.range 1).map (fun i => m.grp (i + 1))) ++ [tail])) =
      (ms.map (fun m => (m.gap, m.whole))).flatMap (fun p => glyphText C p.1 ++ p.2) ++ glyphText C tail
  | [], _ => by simp [glyphPieces, concat]
  | m :: ms, h => by
    have ih := glyphPieces_eq C tail ms (fun x hx => h x (List.mem_cons_of_mem _ hx))
    have h1 := h m (by simp)
    simp only [List.range_one, List.map_cons, List.map_nil, Nat.zero_add, List.flatMap_cons, List.cons_append,
      List.nil_append, glyphPieces] at ih ⊢
    simp only [concat, List.flatten_cons] at ih ⊢
    rw [ih, h1]; simp

/-- **C43.** Typographic replacement leaves every tag of its input unchanged and in place:
there is a function (what is done to text) such that the output is the input, cut at its
tags, with this function applied to the texts between the tags and nothing done to the
tags.  (Newlines at the end of the input are dropped first.) -/
theorem C43_tags_kept (C : Ctx) : ∃ f : Str → Str, ∀ t : Str, ∃ ps rest,
    Spec.Cut C.U.isWord (Spec.dropFinalNewlines t) ps rest ∧
      glyphs C t = ps.flatMap (fun p => f p.1 ++ p.2) ++ f rest := by
  refine ⟨glyphText C, fun t => ?_⟩
  have h := Re.matches_Segs (U := C.U) (r := GLYPH_SPLIT_RE) (by decide) (trimEndP (· == '\n') t)
  obtain ⟨h1, h2⟩ := cut_of_segs h
  rw [← dropFinalNewlines_eq]
  exact ⟨_, _, h1, glyphPieces_eq C _ _ h2⟩

/-- An example with replacements on both sides of a tag that contains the same signs. -/
example : glyphs ⟨demoEnv, demoCfg, 2⟩ t!"a (c) <i x=\"(c) y\">b (c)\n" = t!"a &#169; <i x=\"(c) y\">b &#169;" := by
  decide +kernel

end Rustextile
