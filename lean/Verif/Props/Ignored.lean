import Verif.Props.History

/-!
# Options without effect: C99, C100
-/

namespace Rustextile

open Prog

theorem run_same {C D : Ctx} (hu : C.cfg.uid = D.cfg.uid) (hE : C.E = D.E) {α : Type} (p : Prog α) : ∀ w, run C p w = run D p w := by
  induction p with
  | ret a => intro w; rfl
  | fail e => intro w; rfl
  | shelve kd v k ih => intro w; simp only [run, ih, hu]
  | cacheRef kd v k ih => intro w; simp only [run, ih]
  | incLink k ih => intro w; simp only [run, ih]
  | setFootnote a b k ih => intro w; simp only [run, ih]
  | setAux g k ih => intro w; simp only [run, ih]
  | spanEnter k ih => intro w; simp only [run, ih]
  | spanLeave k ih => intro w; simp only [run, ih]
  | getSt k ih => intro w; simp only [run, ih]
  | getPat s k ih => intro w; simp only [run, ih, hu]
  | probe u k ih => intro w; simp only [run, ih, hE]

theorem parse_same {E : Env} {fuel : Nat} {c d : Cfg} (hu : c.uid = d.uid) (h1 : prepare ⟨E, c, fuel⟩ = prepare ⟨E, d, fuel⟩)
    (h2 : parseBody ⟨E, c, fuel⟩ = parseBody ⟨E, d, fuel⟩) (h3 : finish ⟨E, c, fuel⟩ = finish ⟨E, d, fuel⟩) (text : Str) :
    parseFresh E fuel c text = parseFresh E fuel d text := by
  by_cases hb : Spec.Blank text
  · unfold parseFresh; rw [C01_blank _ _ _ _ hb, C01_blank _ _ _ _ hb]
  · unfold parseFresh
    rw [parse_nonblank hb, parse_nonblank hb]
    dsimp only
    rw [h1, h2, h3, run_same (C := ⟨E, c, fuel⟩) (D := ⟨E, d, fuel⟩) hu rfl]
    cases run ⟨E, d, fuel⟩ (parseBody ⟨E, d, fuel⟩ (prepare ⟨E, d, fuel⟩ text)) {} with
    | error e => rfl
    | ok q => rfl

/-! ## C99 -/

set_option smartUnfolding false in
theorem parseBody_sizes (E : Env) (fuel : Nat) (cfg : Cfg) (b : Bool) :
    parseBody ⟨E, { cfg with noimage := true, getSizes := b }, fuel⟩ = parseBody ⟨E, { cfg with noimage := true }, fuel⟩ := by
  with_unfolding_all rfl

/-- **C99.** Without images, whether their sizes are asked for makes no difference, whatever the text and the other options. -/
theorem C99_sizes_ignored (E : Env) (fuel : Nat) (cfg : Cfg) (b : Bool) (text : Str) :
    parseFresh E fuel ((Setter.gettingImageSize b).apply ((Setter.images false).apply cfg)) text =
      parseFresh E fuel ((Setter.images false).apply cfg) text :=
  parse_same (c := { cfg with noimage := true, getSizes := b }) (d := { cfg with noimage := true }) rfl rfl (parseBody_sizes E fuel cfg b) rfl text

/-- A text with an image. -/
theorem C99_sizes_ignored_ex : parseFresh { demoEnv with imageSize := fun _ => some (3, 4) } 100
      ((Setter.gettingImageSize true).apply ((Setter.images false).apply demoCfg)) t!"!http://a.org/b.png!" = .ok t!"<p>!http://a.org/b.png!</p>" :=
  (C99_sizes_ignored _ _ _ _ _).trans (by decide +kernel)

/-- With images it does make a difference. -/
theorem C99_sizes_matter : parseFresh { demoEnv with imageSize := fun _ => some (3, 4) } 100
      ((Setter.gettingImageSize true).apply demoCfg) t!"!http://a.org/b.png!" = .ok t!"<p><img alt=\"\" height=\"4\" src=\"http://a.org/b.png\" width=\"3\" /></p>" := by
  decide +kernel

/-! ## C100 -/

/-- The options that inline mode ignores. -/
inductive BlockOption : Setter → Prop where
  | lite (v : Bool) : BlockOption (.lite v)
  | images (v : Bool) : BlockOption (.images v)
  | sizes (v : Bool) : BlockOption (.gettingImageSize v)
  | rel (v : Option Str) : BlockOption (.rel v)
  | raw (v : Bool) : BlockOption (.rawBlocks v)

section
variable (E : Env) (fuel : Nat) (cfg : Cfg) (l n g r : Bool) (v : Option Str)

set_option smartUnfolding false in
theorem span_ignores : span ⟨E, { cfg with blockTags := false, lite := l, noimage := n, getSizes := g, rel := v, rawBlocks := r }, fuel⟩ =
    span ⟨E, { cfg with blockTags := false }, fuel⟩ := by
  with_unfolding_all rfl

set_option smartUnfolding false in
theorem quoted_ignores : glyphQuotedQuote ⟨E, { cfg with blockTags := false, lite := l, noimage := n, getSizes := g, rel := v, rawBlocks := r }, fuel⟩ =
    glyphQuotedQuote ⟨E, { cfg with blockTags := false }, fuel⟩ := by
  with_unfolding_all rfl

set_option smartUnfolding false in
theorem glyphs_ignores : glyphs ⟨E, { cfg with blockTags := false, lite := l, noimage := n, getSizes := g, rel := v, rawBlocks := r }, fuel⟩ =
    glyphs ⟨E, { cfg with blockTags := false }, fuel⟩ := by
  with_unfolding_all rfl

set_option smartUnfolding false in
theorem tags_ignores : retrieveTags ⟨E, { cfg with blockTags := false, lite := l, noimage := n, getSizes := g, rel := v, rawBlocks := r }, fuel⟩ =
    retrieveTags ⟨E, { cfg with blockTags := false }, fuel⟩ := by
  with_unfolding_all rfl

set_option smartUnfolding false in
theorem urls_ignores : retrieveUrls ⟨E, { cfg with blockTags := false, lite := l, noimage := n, getSizes := g, rel := v, rawBlocks := r }, fuel⟩ =
    retrieveUrls ⟨E, { cfg with blockTags := false }, fuel⟩ := by
  with_unfolding_all rfl

theorem parseBody_inline :
    parseBody ⟨E, { cfg with blockTags := false, lite := l, noimage := n, getSizes := g, rel := v, rawBlocks := r }, fuel⟩ =
      parseBody ⟨E, { cfg with blockTags := false }, fuel⟩ := by
  funext t
  unfold parseBody
  rw [span_ignores, quoted_ignores, glyphs_ignores, tags_ignores, urls_ignores]
  simp only [Bool.false_eq_true, if_false]

theorem parse_inline_same (text : Str) :
    parseFresh E fuel { cfg with blockTags := false, lite := l, noimage := n, getSizes := g, rel := v, rawBlocks := r } text =
      parseFresh E fuel { cfg with blockTags := false } text :=
  parse_same (c := { cfg with blockTags := false, lite := l, noimage := n, getSizes := g, rel := v, rawBlocks := r })
    (d := { cfg with blockTags := false }) rfl rfl (parseBody_inline E fuel cfg l n g r v) rfl text

end

/-- **C100.** In inline mode, lite mode, images and their sizes, `rel` and raw blocks make no difference, whatever the text and the other options. -/
theorem C100_inline_ignores (E : Env) (fuel : Nat) (cfg : Cfg) (ss : List Setter) (hs : ∀ s ∈ ss, BlockOption s) (text : Str) :
    parseFresh E fuel (ss.foldl (fun c s => s.apply c) ((Setter.blockTags false).apply cfg)) text =
      parseFresh E fuel ((Setter.blockTags false).apply cfg) text := by
  have key : ∀ (ss : List Setter), (∀ s ∈ ss, BlockOption s) → ∀ l n g r v, ∃ l' n' g' r' v',
      ss.foldl (fun c s => s.apply c) { cfg with blockTags := false, lite := l, noimage := n, getSizes := g, rel := v, rawBlocks := r } =
        { cfg with blockTags := false, lite := l', noimage := n', getSizes := g', rel := v', rawBlocks := r' } := by
    intro ss
    induction ss with
    | nil => intro _ l n g r v; exact ⟨l, n, g, r, v, rfl⟩
    | cons s ss ih =>
      intro hs l n g r v
      rw [List.foldl_cons]
      have h := hs s (by simp)
      have h' := fun x hx => hs x (List.mem_cons_of_mem s hx)
      cases h with
      | lite b => exact ih h' b n g r v
      | images b => exact ih h' l (!b) g r v
      | sizes b => exact ih h' l n b r v
      | rel b => exact ih h' l n g r b
      | raw b => exact ih h' l n g b v
  obtain ⟨l, n, g, r, v, e⟩ := key ss hs cfg.lite cfg.noimage cfg.getSizes cfg.rawBlocks cfg.rel
  have e0 : (Setter.blockTags false).apply cfg =
    { cfg with blockTags := false, lite := cfg.lite, noimage := cfg.noimage, getSizes := cfg.getSizes, rel := cfg.rel, rawBlocks := cfg.rawBlocks } := rfl
  rw [e0, e]
  exact parse_inline_same E fuel cfg l n g r v text

/-- A text with a link and an image. -/
theorem C100_inline_ignores_ex : parseFresh demoEnv 100
      ([Setter.lite true, .images false, .rel (some t!"x")].foldl (fun c s => s.apply c) ((Setter.blockTags false).apply demoCfg))
      t!"_a_ \"b\":/c !d.png!" = .ok t!"<em>a</em> &#8220;b&#8221;:/c !d.png!" :=
  (C100_inline_ignores _ _ _ _ (by
    intro s hs
    simp only [List.mem_cons, List.not_mem_nil, or_false] at hs
    rcases hs with rfl | rfl | rfl <;> constructor) _).trans (by decide +kernel)

/-- Outside inline mode they do make a difference. -/
theorem C100_options_matter : parseFresh demoEnv 100 ([Setter.lite true, .images false, .rel (some t!"x")].foldl (fun c s => s.apply c) demoCfg)
      t!"_a_ \"b\":/c !d.png!" = .ok t!"<p><em>a</em> <a href=\"/c\" rel=\"x\">b</a> !d.png!</p>" ∧
    parseFresh demoEnv 100 demoCfg t!"_a_ \"b\":/c !d.png!" = .ok t!"<p><em>a</em> <a href=\"/c\">b</a> <img alt=\"\" src=\"d.png\" /></p>" := by
  constructor <;> decide +kernel

end Rustextile
