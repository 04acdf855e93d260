import Verif.Ordinary
import Verif.SpecNotes

/-!
# How the words of a pattern begin
-/

namespace Rustextile

/-- No word of the pattern is empty. -/
def Re.solid : Re → Bool
  | .set _ _ => true
  | .seq a b => solid a || solid b
  | .alt a b => solid a && solid b
  | .grp _ r => solid r
  | _ => false

theorem Re.solid_lang {U : Uni} : ∀ {r : Re}, r.solid = true → ¬ r.lang U []
  | .set n it, _, hl => by obtain ⟨x, e, -⟩ := hl; cases e
  | .seq a b, h, hl => by
    simp only [Re.solid, Bool.or_eq_true] at h
    obtain ⟨u, x, e, hu, hv⟩ := hl
    obtain ⟨rfl, rfl⟩ := List.append_eq_nil_iff.1 e.symm
    rcases h with h | h
    · exact Re.solid_lang h hu
    · exact Re.solid_lang h hv
  | .alt a b, h, hl => by
    simp only [Re.solid, Bool.and_eq_true] at h
    rcases hl with hl | hl
    · exact Re.solid_lang h.1 hl
    · exact Re.solid_lang h.2 hl
  | .grp _ r, h, hl => Re.solid_lang (r := r) h hl

/-- Every word of the pattern is empty or begins with one of the characters. -/
def Re.begins (D : Str) : Re → Bool
  | .set n it => !n && it.all (fun i => match i with | .chr d => D.contains d | _ => false)
  | .seq a b => begins D a && (a.solid || begins D b)
  | .alt a b => begins D a && begins D b
  | .star _ r => begins D r
  | .grp _ r => begins D r
  | .bref _ => false
  | _ => true

theorem Re.begins_lang {U : Uni} {D : Str} : ∀ {r : Re}, r.begins D = true → ∀ {w : Str}, r.lang U w → ∀ c v, w = c :: v → c ∈ D
  | .set n it, h, w, hl, c, v, e => by
    obtain ⟨x, rfl, hx⟩ := hl
    simp only [Re.begins, Bool.and_eq_true, Bool.not_eq_true', List.all_eq_true] at h
    obtain ⟨rfl, h⟩ := h
    simp only [List.cons.injEq] at e
    obtain ⟨rfl, rfl⟩ := e
    obtain ⟨i, hi, hix⟩ : ∃ i ∈ it, i.eval U x = true := by simpa [evalSet] using hx
    have := h i hi
    split at this
    · rw [Item.eval_chr] at hix; simp at hix; subst hix; simpa using this
    · cases this
  | .seq a b, h, w, hl, c, v, e => by
    simp only [Re.begins, Bool.and_eq_true, Bool.or_eq_true] at h
    obtain ⟨u, x, rfl, hu, hv⟩ := hl
    cases u with
    | nil =>
      rcases h.2 with h2 | h2
      · exact absurd hu (Re.solid_lang h2)
      · exact Re.begins_lang h2 hv c v (by simpa using e)
    | cons d u => simp at e; exact Re.begins_lang h.1 hu c u (by rw [e.1])
  | .alt a b, h, w, hl, c, v, e => by
    simp only [Re.begins, Bool.and_eq_true] at h
    rcases hl with hl | hl
    · exact Re.begins_lang h.1 hl c v e
    · exact Re.begins_lang h.2 hl c v e
  | .star _ r, h, w, hl, c, v, e => by
    obtain ⟨ws, rfl, hws⟩ := hl
    have h' : r.begins D = true := h
    have key : ∀ ws : List Str, (∀ u ∈ ws, r.lang U u) → ∀ v, ws.flatten = c :: v → c ∈ D := by
      intro ws
      induction ws with
      | nil => intro _ v e; simp at e
      | cons u ws ih =>
        intro hws v e
        cases u with
        | nil => exact ih (fun u hu => hws u (by simp [hu])) v (by simpa using e)
        | cons d u => simp at e; exact Re.begins_lang h' (hws (d :: u) (by simp)) c u (by rw [e.1])
    exact key ws hws v e
  | .grp _ r, h, w, hl, c, v, e => Re.begins_lang (r := r) h hl c v e
  | .bref _, h, _, _, _, _, _ => by simp [Re.begins] at h
  | .eps, _, _, hl, _, _, e => by rw [show _ = [] from hl] at e; cases e
  | .look _ _, _, _, hl, _, _, e => by rw [show _ = [] from hl] at e; cases e
  | .behind _ _ _, _, _, hl, _, _, e => by rw [show _ = [] from hl] at e; cases e
  | .bot, _, _, hl, _, _, e => by rw [show _ = [] from hl] at e; cases e
  | .eot, _, _, hl, _, _, e => by rw [show _ = [] from hl] at e; cases e
  | .bol, _, _, hl, _, _, e => by rw [show _ = [] from hl] at e; cases e
  | .eol, _, _, hl, _, _, e => by rw [show _ = [] from hl] at e; cases e
  | .wordb, _, _, hl, _, _, e => by rw [show _ = [] from hl] at e; cases e

theorem tagAtts_begins : tagAtts.begins t!"()[{<>=-^~" = true := by decide +kernel

/-- Texts that are not tagged blocks. -/
theorem tag_none_of {C : Ctx} {t : Str} (h : Spec.NoBlockStart C.U.isNd C.cfg.lite t) : (blockTagRe C).captures C.U t = none := by
  apply Re.captures_none
  rw [blockTagRe, tagRe_shape]
  apply Re.search_bot
  generalize hr : (Re.seq (.grp 1 (tagWords C.cfg.lite)) (.seq (.grp 2 tagAtts) (.seq dotRe (.seq extRe
    (.seq citeRe (.seq spRe allRe)))))) = r
  cases hl : r.all C.U ⟨[], t⟩ [] with
  | nil => rfl
  | cons p l =>
    exfalso
    obtain ⟨w, hw, lw⟩ := Re.all_lang r ⟨[], t⟩ [] p (by rw [hl]; simp)
    subst hr
    obtain ⟨u, v, rfl, hu, at', v', rfl, hat, dt, v'', rfl, hdt, -⟩ := lw
    have e : t = u ++ (at' ++ (dt ++ v'')) ++ p.1.rest := hw.1
    rw [show dt = ['.'] from lang_chr.1 hdt] at e
    cases at' with
    | nil => exact h u '.' (v'' ++ p.1.rest) (by rw [e]; simp) (by decide) (tagWords_lang hu)
    | cons c x =>
      refine h u c (x ++ (['.'] ++ v'') ++ p.1.rest) (by rw [e]; simp) ?_ (tagWords_lang hu)
      have : c ∈ t!"()[{<>=-^~" := Re.begins_lang tagAtts_begins (show tagAtts.lang C.U (c :: x) from hat) c x rfl
      exact (by decide : ∀ c ∈ t!"()[{<>=-^~", c ∈ Spec.blockNext) c this

end Rustextile
