import Verif.Body
import Verif.RegexLazy

/-!
# Tags in text, and the replacement of characters between them
-/

namespace Rustextile

open Prog

/-- Text, and tags each followed by text. -/
def weave (w : Str) (ps : List (Str × Str)) : Str := w ++ ps.flatMap (fun p => p.1 ++ p.2)

theorem weave_nil (w : Str) : weave w [] = w := by simp [weave]

theorem weave_cons (w g v : Str) (ps : List (Str × Str)) : weave w ((g, v) :: ps) = w ++ (g ++ weave v ps) := by
  simp [weave]

theorem weave_append (w : Str) (ps qs : List (Str × Str)) : weave w (ps ++ qs) = weave w ps ++ weave [] qs := by
  simp [weave]

/-- Characters that can follow `<` in a tag. -/
def splitStart : List Item := [.cls .word, .chr '/', .chr '!', .chr '?']

/-- A tag as recognised by the replacement of characters. -/
structure SplitTag (U : Uni) (g : Str) : Prop where
  ex : ∃ c m, g = '<' :: c :: (m ++ ['>']) ∧ evalSet U false splitStart c = true ∧ '>' ∉ m ∧ '\n' ∉ m

theorem GLYPH_SPLIT_shape : GLYPH_SPLIT_RE = .grp 1 (.seq (.set false [.chr '<']) (.seq (.set false splitStart)
    (.seq (.star false (.set true [.chr '\n'])) (.set false [.chr '>'])))) := by kernel_rfl

theorem GLYPH_SPLIT_nonnull : GLYPH_SPLIT_RE.nonnull = true := by kernel_rfl

theorem evalSet_nonl {U : Uni} {c : Char} (h : c ≠ '\n') : evalSet U true [.chr '\n'] c = true := by
  simp [evalSet, Item.eval_chr, h]

theorem split_hit {U : Uni} {g : Str} (hg : SplitTag U g) (pre rest : Str) :
    GLYPH_SPLIT_RE.matchAt U ⟨pre, g ++ rest⟩ = some (⟨g.reverse ++ pre, rest⟩, [(1, g)]) := by
  obtain ⟨c, m, rfl, hc, h1, h2⟩ := hg.ex
  rw [GLYPH_SPLIT_shape]
  apply Heads.matchAt
  refine Heads.grp (s' := []) ?_
  have e : '<' :: c :: (m ++ ['>']) = ['<'] ++ ([c] ++ (m ++ ['>'])) := by simp
  rw [e]
  refine Heads.seq .chr (Heads.seq (.set hc) ?_)
  rcases all_lazy_until (U := U) (n := true) (it := [.chr '\n']) (d := '>') (s := []) (m ++ '>' :: rest) ([c].reverse ++ (['<'].reverse ++ pre)) with
    ⟨b, r, l, e1, h3, h4, h5⟩ | ⟨h3, -⟩
  · have := List.append_eq_append_iff.1 e1
    have hb : b = m ∧ r = rest := by
      rcases this with ⟨x, hx, hy⟩ | ⟨x, hx, hy⟩
      · cases x with
        | nil => simp at hx hy; exact ⟨hx, hy.symm⟩
        | cons y x => simp at hy; exact absurd (by rw [hx, ← hy.1]; simp) h3
      · cases x with
        | nil => simp at hx hy; exact ⟨hx.symm, hy⟩
        | cons y x => simp at hy; exact absurd (by rw [hx, ← hy.1]; simp) h1
    obtain ⟨rfl, rfl⟩ := hb
    refine ⟨l, ?_⟩
    simp only [List.append_assoc, List.cons_append, List.nil_append] at h5 ⊢
    rw [h5]; simp
  · exfalso
    obtain ⟨x, hx, h⟩ := h3 m rest rfl
    rw [evalSet_nonl (by rintro rfl; exact h2 hx)] at h
    cases h

theorem split_skips {U : Uni} {w : Str} (hw : '<' ∉ w) (pre rest : Str) : Skips U GLYPH_SPLIT_RE pre w rest := by
  intro u x v e
  rw [Re.matchAt_none, GLYPH_SPLIT_shape]
  have hx : x ≠ '<' := by rintro rfl; exact hw (by rw [e]; simp)
  simp [Re.all, evalSet_chr, hx]

theorem weave_segs {U : Uni} : ∀ {ps : List (Str × Str)} {w : Str} (pre : Str), '<' ∉ w → (∀ p ∈ ps, SplitTag U p.1 ∧ '<' ∉ p.2) →
    ∃ ms t, Segs U GLYPH_SPLIT_RE pre (weave w ps) ms t ∧
      ms.flatMap (fun m => m.gap :: (List.range 1).map (fun i => m.grp (i + 1))) ++ [t] = w :: ps.flatMap (fun p => [p.1, p.2])
  | [], w, pre, hw, _ => by
    refine ⟨[], w, ?_, by simp⟩
    rw [weave_nil]
    exact .done (skips_none GLYPH_SPLIT_nonnull (split_skips hw _ _))
  | (g, v) :: ps, w, pre, hw, h => by
    have h0 := h (g, v) (by simp)
    obtain ⟨ms, t, h1, h2⟩ := weave_segs (U := U) (ps := ps) (w := v) (g.reverse ++ (w.reverse ++ pre)) h0.2 (fun p hp => h p (by simp [hp]))
    refine ⟨⟨w, g, [(1, g)]⟩ :: ms, t, ?_, ?_⟩
    · rw [weave_cons]
      refine .hit (split_skips hw _ _) (split_hit h0.1 _ _) ?_ h1
      obtain ⟨c, m, e, -⟩ := h0.1.ex
      intro hn
      have hn : g = [] := hn
      simp only at e
      rw [e] at hn; cases hn
    · rw [List.flatMap_cons, List.append_assoc, h2]
      simp [Mat.grp, Mat.get?, alLookup, List.range, List.range.loop]

theorem glyphPieces_weave {C : Ctx} : ∀ (ps : List (Str × Str)) (w : Str),
    concat (glyphPieces C true (w :: ps.flatMap (fun p => [p.1, p.2]))) =
      weave (glyphText C w) (ps.map (fun p => (p.1, glyphText C p.2)))
  | [], w => by simp [glyphPieces, weave, concat]
  | (g, v) :: ps, w => by
    have ih := glyphPieces_weave (C := C) ps v
    simp only [List.flatMap_cons, List.cons_append, List.nil_append, List.map_cons, weave_cons] at ih ⊢
    rw [← ih]
    simp [glyphPieces, concat]

/-- The replacement of characters leaves tags alone. -/
theorem glyphs_weave {C : Ctx} {ps : List (Str × Str)} {w n : Str} (hw : '<' ∉ w)
    (h : ∀ p ∈ ps, SplitTag C.U p.1 ∧ '<' ∉ p.2) (hl : ∀ c, (weave w ps).getLast? = some c → c ≠ '\n') (hn : ∀ c ∈ n, c = '\n') :
    glyphs C (weave w ps ++ n) = weave (glyphText C w) (ps.map (fun p => (p.1, glyphText C p.2))) := by
  obtain ⟨ms, t, h1, h2⟩ := weave_segs (U := C.U) [] hw h
  unfold glyphs
  rw [trimNl_append hl hn, Re.split, Re.matches_of_Segs h1]
  simp only [h2]
  exact glyphPieces_weave ps w

end Rustextile
