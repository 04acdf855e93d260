import Verif.Inert
import Verif.BlockLemmas
import Verif.StrLemmas

/-!
# Texts that `graf` leaves alone
-/

namespace Rustextile

open Prog

theorem replaceP_none {C : Ctx} {r : Re} {f : Mat → Prog Str} {t : Str} (h : r.search C.U [] t = none) :
    replaceP C r f t = pure t := by
  unfold replaceP Re.replaceAllM
  rw [Re.matches_none h]
  rfl

/-- `span` patterns do not occur. -/
theorem multiReplaceWithOne_none {C : Ctx} {f : Mat → Prog Str} {t : Str} : ∀ {l : List Re},
    (∀ r ∈ l, r.search C.U [] t = none) → multiReplaceWithOne C f l t = pure t
  | [], _ => rfl
  | r :: l, h => by
    unfold multiReplaceWithOne
    rw [replaceP_none (h r (by simp)), pure_bind]
    exact multiReplaceWithOne_none (fun x hx => h x (by simp [hx]))

theorem multiReplace_none {U : Uni} {t : Str} : ∀ {l : List (Re × Str)},
    (∀ p ∈ l, p.1.search U [] t = none) → multiReplace U l t = t
  | [], _ => rfl
  | (r, x) :: l, h => by
    unfold multiReplace
    rw [Re.replaceTempl_none _ (h (r, x) (by simp))]
    exact multiReplace_none (fun x hx => h x (by simp [hx]))

theorem run_span_none {C : Ctx} {t : Str} (h : ∀ r ∈ spanPatterns, r.search C.U [] t = none) (w : World) :
    run C (span C t) w = .ok (t, w) := by
  unfold span
  generalize C.cfg.maxSpanDepth + 1 = n
  unfold spanN
  rw [multiReplaceWithOne_none h]
  simp only [ite_self, pure_bind]
  have e : w.spanEnter.2.spanLeave = w := by
    simp [World.spanEnter, World.spanLeave]
  change (Except.ok (t, w.spanEnter.2.spanLeave) : R (Str × World)) = .ok (t, w)
  rw [e]

theorem run_getPat {C : Ctx} {α : Type} (s : Site) (f : Re → Prog α) (w : World) :
    run C (getPatP s >>= f) w = run C (f (w.getPat C.cfg.uid s).1) (w.getPat C.cfg.uid s).2 := rfl

theorem getPat_valid {uid : Str} {w : World} (h : Cache.Valid uid w.cache) (s : Site) :
    (w.getPat uid s).1 = mkPat uid s ∧ Cache.Valid uid (w.getPat uid s).2.cache ∧ (w.getPat uid s).2.st = w.st := by
  unfold World.getPat
  split
  · rename_i re hre
    exact ⟨h s re hre, h, rfl⟩
  · exact ⟨rfl, Cache.valid_cons h s, rfl⟩

/-- The run succeeds with a value, without changing the state of the parser (only the
regex cache may grow). -/
def Leaves (C : Ctx) (p : Prog Str) (t : Str) : Prop :=
  ∀ w, Cache.Valid C.cfg.uid w.cache →
    ∃ w', run C p w = .ok (t, w') ∧ w'.st = w.st ∧ Cache.Valid C.cfg.uid w'.cache

theorem Leaves.pure {C : Ctx} (t : Str) : Leaves C (Pure.pure t) t := fun w h => ⟨w, rfl, rfl, h⟩

theorem Leaves.bind {C : Ctx} {p : Prog Str} {f : Str → Prog Str} {a b : Str}
    (h : Leaves C p a) (h' : Leaves C (f a) b) : Leaves C (p >>= f) b := by
  intro w hw
  obtain ⟨w1, e1, s1, v1⟩ := h w hw
  obtain ⟨w2, e2, s2, v2⟩ := h' w1 v1
  exact ⟨w2, by rw [run_bind_ok e1, e2], by rw [s2, s1], v2⟩

theorem Leaves.replaceP {C : Ctx} {r : Re} {f : Mat → Prog Str} {t : Str} (h : r.search C.U [] t = none) :
    Leaves C (replaceP C r f t) t := by rw [replaceP_none h]; exact Leaves.pure t

theorem Leaves.span {C : Ctx} {t : Str} (h : ∀ r ∈ spanPatterns, r.search C.U [] t = none) :
    Leaves C (Rustextile.span C t) t := fun w hw => ⟨w, run_span_none h w, rfl, hw⟩

theorem Leaves.unless {C : Ctx} {b : Bool} {f : Str → Prog Str} {t : Str} (h : b = false → Leaves C (f t) t) :
    Leaves C (unlessB b f t) t := by
  unfold unlessB
  split
  · exact Leaves.pure t
  · exact h (by simp_all)

/-- Patterns `graf` looks for before tables. -/
def earlyPatterns : List Re :=
  [SP_NOTEXTILE_RE, SP_EQ_RE, SP_CODE_RE, SP_AT_RE, SP_PRE_RE, SP_COMMENT_RE, RESTRICTED_URLREF_RE,
   UNRESTRICTED_URLREF_RE, QUOTED_RE, SLICE_RE, IMAGE_RE]

/-- Patterns `graf` looks for after tables. -/
def latePatterns : List Re := [RCLIST_RE, LISTS_RE, FOOTNOTE_RE, NOTEREF_RE] ++ spanPatterns

/-- Patterns of the replacement of characters. -/
def glyphPatterns : List Re :=
  [GLYPH_SPLIT_RE, LONE_AMP_RE, DYN_3PLUS_RE] ++ (glyphReplacers true).map (·.1)

/-- A text in which `graf` finds nothing. -/
structure Quiet (U : Uni) (t : Str) : Prop where
  early : ∀ r ∈ earlyPatterns, r.search U [] t = none
  table : TABLE_RE.search U [] (t ++ t!"\n\n") = none
  late : ∀ r ∈ latePatterns, r.search U [] t = none ∧ r.search U [] (t ++ t!"\n\n") = none
  glyph : ∀ r ∈ glyphPatterns, r.search U [] t = none
  lt : '<' ∉ t
  gt : '>' ∉ t
  last : ∀ c, t.getLast? = some c → c ≠ '\n'

theorem glyphReplacers_fst (b : Bool) : (glyphReplacers b).map (·.1) = (glyphReplacers true).map (·.1) := by
  cases b <;> rfl

theorem glyphText_none {C : Ctx} {t : Str} (h : ∀ r ∈ glyphPatterns, r.search C.U [] t = none)
    (hlt : '<' ∉ t) (hgt : '>' ∉ t) : glyphText C t = t := by
  have hraw : (if C.cfg.restricted then t
    else replaceStr t!">" t!"&gt;" (replaceStr t!"<" t!"&lt;" (LONE_AMP_RE.replaceTempl C.U t!"&amp;" t))) = t := by
    split
    · rfl
    · rw [Re.replaceTempl_none _ (h _ (by simp [glyphPatterns])),
        replaceStr_none (containsStr_false_of_mem (c := '<') (by simp) hlt),
        replaceStr_none (containsStr_false_of_mem (c := '>') (by simp) hgt)]
  unfold glyphText
  simp only [hraw]
  apply multiReplace_none
  intro p hp
  apply h
  rw [List.mem_append] at hp
  rcases hp with hp | hp
  · have : p.1 ∈ (glyphReplacers C.cfg.html5).map (·.1) := List.mem_map_of_mem hp
    rw [glyphReplacers_fst] at this
    simp only [glyphPatterns, List.mem_append]
    exact .inr this
  · simp at hp; subst hp; simp [glyphPatterns]

theorem trimNl_append {t : Str} (hl : ∀ c, t.getLast? = some c → c ≠ '\n') {n : Str} (hn : ∀ c ∈ n, c = '\n') :
    trimEndP (· == '\n') (t ++ n) = t := by
  rw [trimEndP_append_of_all (by simpa using hn), trimEndP_of_last (by simpa using hl)]

/-- `glyphs` finds nothing; newlines at the end are dropped. -/
theorem glyphs_none {C : Ctx} {t n : Str} (h : ∀ r ∈ glyphPatterns, r.search C.U [] t = none)
    (hlt : '<' ∉ t) (hgt : '>' ∉ t) (hl : ∀ c, t.getLast? = some c → c ≠ '\n') (hn : ∀ c ∈ n, c = '\n') :
    glyphs C (t ++ n) = t := by
  unfold glyphs
  rw [trimNl_append hl hn, Re.split_none _ (h _ (by simp [glyphPatterns]))]
  simp only [glyphPieces, glyphText_none h hlt hgt]
  simp [concat]

theorem markStartOfLinks_none {C : Ctx} {t : Str} (h : SLICE_RE.search C.U [] t = none) :
    markStartOfLinks C t = .ok t := by
  unfold markStartOfLinks
  rw [Re.split_none _ h]

theorem Leaves.links {C : Ctx} (hf : 0 < C.fuel) {t : Str} {g : Str → Prog Str}
    (h : SLICE_RE.search C.U [] t = none)
    (hn : containsStr (C.cfg.uid ++ t!"linkStartMarker:") t = false) : Leaves C (links C g t) t := by
  unfold Rustextile.links
  rw [markStartOfLinks_none h]
  change Leaves C (replaceLinks C g t) t
  unfold replaceLinks
  intro w hw
  rw [run_getPat]
  obtain ⟨_, h2, h3⟩ := getPat_valid hw .links
  obtain ⟨f, hf⟩ : ∃ f, C.fuel = f + 1 := ⟨C.fuel - 1, by omega⟩
  rw [hf]
  unfold linkLoop
  rw [hn]
  exact ⟨_, rfl, h3, h2⟩

/-- A quiet text is left alone by `graf`. -/
theorem Leaves.graf {C : Ctx} (hf : 0 < C.fuel) {t : Str} (h : Quiet C.U t) (n : Nat)
    (hn : containsStr (C.cfg.uid ++ t!"linkStartMarker:") t = false) : Leaves C (graf C (n + 1) t) t := by
  have he := h.early
  simp only [earlyPatterns, List.mem_cons, List.not_mem_nil, or_false, forall_eq_or_imp, forall_eq] at he
  obtain ⟨e1, e2, e3, e4, e5, e6, e7, e8, e9, e10, e11⟩ := he
  have hl := h.late
  unfold Rustextile.graf
  refine Leaves.bind (a := t) (Leaves.unless fun _ => ?_) ?_
  · unfold noTextile; exact (Leaves.replaceP e1).bind (Leaves.replaceP e2)
  refine Leaves.bind (a := t) (Leaves.unless fun _ => ?_) ?_
  · unfold code; exact (Leaves.replaceP e3).bind ((Leaves.replaceP e4).bind (Leaves.replaceP e5))
  refine Leaves.bind (a := t) (Leaves.replaceP e6) ?_
  refine Leaves.bind (a := t) ?_ ?_
  · unfold getRefs; apply Leaves.replaceP; split <;> assumption
  refine Leaves.bind (a := t) (Leaves.replaceP e9) ?_
  refine Leaves.bind (a := t) (Leaves.links hf e10 hn) ?_
  refine Leaves.bind (a := t) (Leaves.unless fun _ => Leaves.replaceP e11) ?_
  obtain ⟨nl, hnl, htab, hlate⟩ : ∃ nl, (∀ c ∈ nl, c = '\n') ∧
      Leaves C (unlessB C.cfg.lite (table C (Rustextile.graf C n)) t) (t ++ nl) ∧
      ∀ r ∈ latePatterns, r.search C.U [] (t ++ nl) = none := by
    by_cases hlite : C.cfg.lite = true
    · refine ⟨[], by simp, ?_, fun r hr => by simpa using (hl r hr).1⟩
      rw [hlite]; simp only [unlessB, if_true, List.append_nil]; exact Leaves.pure t
    · refine ⟨t!"\n\n", by simp, ?_, fun r hr => (hl r hr).2⟩
      simp only [unlessB, hlite, if_false, table]
      rw [Re.captures_none h.table]
      exact Leaves.pure _
  have hs : ∀ r ∈ spanPatterns, r.search C.U [] (t ++ nl) = none :=
    fun r hr => hlate r (by simp only [latePatterns, List.mem_append]; exact .inr hr)
  refine Leaves.bind htab ?_
  refine Leaves.bind (a := t ++ nl) (Leaves.unless fun _ => Leaves.replaceP (hlate _ (by simp [latePatterns]))) ?_
  refine Leaves.bind (a := t ++ nl) (Leaves.unless fun _ => Leaves.replaceP (hlate _ (by simp [latePatterns]))) ?_
  refine Leaves.bind (a := t ++ nl) (Leaves.span hs) ?_
  refine Leaves.bind (a := t ++ nl) (Leaves.replaceP (hlate _ (by simp [latePatterns]))) ?_
  refine Leaves.bind (a := t ++ nl) (Leaves.replaceP (hlate _ (by simp [latePatterns]))) ?_
  rw [glyphs_none h.glyph h.lt h.gt h.last hnl]
  rw [trimEndP_of_last (by simpa using h.last)]
  exact Leaves.pure t

end Rustextile
