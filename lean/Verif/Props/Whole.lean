import Verif.Spec
import Verif.StrLemmas
import Verif.BreakLemmas
import Verif.ProgLemmas
import Verif.Demo

/-!
# Properties of `parse` as a whole: C01–C05
-/

namespace Rustextile

/-! ## Helper lemmas -/

theorem isWs_iff (c : Char) : isWs c = true ↔ c.toNat ∈ Spec.whiteSpace := by
  simp [isWs, Spec.whiteSpace]; omega

theorem blank_iff {s : Str} : (trim s).isEmpty = true ↔ Spec.Blank s := by
  rw [trim_isEmpty]
  exact forall_congr' fun c => imp_congr_right fun _ => isWs_iff c

theorem parse_nonblank {E : Env} {fuel : Nat} {t : Textile} {text : Str} (hb : ¬ Spec.Blank text) :
    t.parse E fuel text =
      match run ⟨E, t.cfg, fuel⟩ (parseBody ⟨E, t.cfg, fuel⟩ (prepare ⟨E, t.cfg, fuel⟩ text))
        { cache := t.cache } with
      | .ok (b, w) => .ok (finish ⟨E, t.cfg, fuel⟩ b, { t with cache := w.cache })
      | .error e => .error e := by
  have hb' : (trim text).isEmpty = false := by
    rw [← Bool.not_eq_true, blank_iff]; exact hb
  unfold Textile.parse parseP
  rw [hb']
  simp only [Bool.false_eq_true, if_false]
  rw [run_bind]
  cases run ⟨E, t.cfg, fuel⟩ (parseBody ⟨E, t.cfg, fuel⟩ (prepare ⟨E, t.cfg, fuel⟩ text)) _ with
  | error e => rfl
  | ok q => rfl

theorem parse_ok_inv {E : Env} {fuel : Nat} {t t' : Textile} {text out : Str} (hb : ¬ Spec.Blank text)
    (h : t.parse E fuel text = .ok (out, t')) : ∃ b, out = finish ⟨E, t.cfg, fuel⟩ b := by
  rw [parse_nonblank hb] at h
  split at h
  · simp at h; exact ⟨_, h.1.symm⟩
  · simp at h

theorem dropFinalNewlines_eq (s : Str) : trimEndP (· == '\n') s = Spec.dropFinalNewlines s := by
  induction s with
  | nil => rfl
  | cons c t ih =>
    rw [Spec.dropFinalNewlines, ← ih]
    obtain ⟨w, h1, h2⟩ := trimEndP_spec (· == '\n') t
    cases h : trimEndP (· == '\n') t with
    | nil =>
      rw [h] at h1
      simp only
      have e : c :: t = [c] ++ w := by simpa using h1
      rw [e, trimEndP_append_of_all h2]
      by_cases hc : c = '\n' <;> simp [trimEndP, hc]
    | cons d u =>
      have hl := trimEndP_last (· == '\n') t
      rw [h] at h1 hl
      have e : c :: t = (c :: d :: u) ++ w := by rw [h1]; simp
      rw [e, trimEndP_append_of_all h2]
      simp only
      apply trimEndP_of_last
      intro x hx
      exact hl x (by simpa using hx)

theorem BR_none {U : Uni} {pre rest : Str}
    (h : ∀ t, rest = t!"<br>" ++ t ∨ rest = t!"<br />" ++ t → t.head? = some '\n') :
    BR_PATTERN.matchAt U ⟨pre, rest⟩ = none := by
  cases hm : BR_PATTERN.matchAt U ⟨pre, rest⟩ with
  | none => rfl
  | some p => exact absurd (h p.1.rest (BR_sound hm).1) (BR_sound hm).2

theorem BR_hit {U : Uni} {t pre rest : Str} (ht : t = t!"<br>" ∨ t = t!"<br />")
    (hr : rest.head? ≠ some '\n') :
    ∃ s, BR_PATTERN.matchAt U ⟨pre, t ++ rest⟩ = some (⟨t.reverse ++ pre, rest⟩, s) := by
  obtain ⟨⟨e, s⟩, h⟩ := BR_complete (U := U) (pre := pre) ht hr
  obtain ⟨w, _, hw⟩ := Re.matchAt_nonnull BR_nonnull h
  have hs := (BR_sound h).1
  have h1 : t ++ rest = w ++ e.rest := hw.1
  have h2 : e.pre = w.reverse ++ pre := hw.2
  have hwt : w = t ∧ e.rest = rest := by
    rcases ht with rfl | rfl <;> rcases hs with hs | hs <;> simp at hs
    · subst hs
      exact ⟨List.append_cancel_right (h1.symm), rfl⟩
    · subst hs
      exact ⟨List.append_cancel_right (h1.symm), rfl⟩
  refine ⟨s, ?_⟩
  rw [h]
  congr 2
  cases e
  simp_all

/-- Scanning with the break pattern computes `tidyBreaks`. -/
theorem scan_breaks {U : Uni} {g : Str → Caps → Str} {br : Str}
    (hg : ∀ w s, g w s = br ++ ['\n']) (rest : Str) : ∀ pre,
    Scan U BR_PATTERN g pre rest (Spec.tidyBreaks br rest) := by
  have nolt : ∀ {x : Char} {xs pre : Str}, x ≠ '<' → BR_PATTERN.matchAt U ⟨pre, x :: xs⟩ = none := by
    intro x xs pre hx
    apply BR_none
    rintro t (h | h) <;> simp at h <;> exact absurd h.1 hx
  fun_induction Spec.tidyBreaks br rest with
  | case1 t ih =>
    intro pre
    split
    · rename_i hh
      refine .miss (BR_none ?_) (.miss (nolt (by decide)) (.miss (nolt (by decide))
        (.miss (nolt (by decide)) (ih _))))
      rintro u (h | h) <;> simp at h
      subst h; exact hh
    · rename_i hh
      obtain ⟨s, h⟩ := BR_hit (U := U) (pre := pre) (t := t!"<br>") (.inl rfl) hh
      have := Scan.hit (g := g) h (by simp) (ih _)
      rw [hg] at this; exact this
  | case2 t ih =>
    intro pre
    split
    · rename_i hh
      refine .miss (BR_none ?_) (.miss (nolt (by decide)) (.miss (nolt (by decide))
        (.miss (nolt (by decide)) (.miss (nolt (by decide)) (.miss (nolt (by decide)) (ih _))))))
      rintro u (h | h) <;> simp at h
      subst h; exact hh
    · rename_i hh
      obtain ⟨s, h⟩ := BR_hit (U := U) (pre := pre) (t := t!"<br />") (.inr rfl) hh
      have := Scan.hit (g := g) h (by simp) (ih _)
      rw [hg] at this; exact this
  | case3 c t h1 h2 ih =>
    intro pre
    refine .miss (BR_none ?_) (ih _)
    rintro u (h | h) <;> simp at h
    · exact absurd h.2 (h1 u h.1)
    · exact absurd h.2 (h2 u h.1)
  | case4 => intro pre; exact .nil

/-- The last step of `parse`, in terms of the specification. -/
theorem finish_eq (C : Ctx) (b : Str) : finish C b =
    Spec.dropFinalNewlines (Spec.tidyBreaks C.cfg.brTag (match C.cfg.sanitizer with
      | some f => f b
      | none => b)) := by
  unfold finish
  simp only
  rw [dropFinalNewlines_eq]
  congr 1
  refine Re.replaceTempl_eq BR_nonnull (scan_breaks ?_ _ _)
  intro w s
  rw [templ_lit]
  unfold Cfg.brTag
  split <;> decide

theorem dropFinalNewlines_last (s : Str) : (Spec.dropFinalNewlines s).getLast? ≠ some '\n' := by
  rw [← dropFinalNewlines_eq]
  intro h
  have := trimEndP_last _ _ _ h
  simp at this

/-! ## C01 -/

/-- **C01.** Blank input is returned unchanged, and the value is unchanged too. -/
theorem C01_blank (E : Env) (fuel : Nat) (t : Textile) (text : Str) (h : Spec.Blank text) :
    t.parse E fuel text = .ok (text, t) := by
  unfold Textile.parse parseP
  rw [if_pos (blank_iff.2 h)]
  rfl

example : Spec.Blank t!" \t\n " ∧ ¬ Spec.Blank t!" a" := by decide

/-! ## C02 -/

/-- **C02.** The output does not end with a newline. -/
theorem C02_no_final_newline (E : Env) (fuel : Nat) (t t' : Textile) (text out : Str)
    (hb : ¬ Spec.Blank text) (h : t.parse E fuel text = .ok (out, t')) :
    out.getLast? ≠ some '\n' := by
  obtain ⟨b, rfl⟩ := parse_ok_inv hb h
  rw [finish_eq]
  exact dropFinalNewlines_last _

/-! ## C03 -/

theorem occ_skip {tag b X : Str} (ht : tag.head? = some '<') : ∀ {p a : Str}, '<' ∉ p →
    p ++ X = a ++ tag ++ b → ∃ a', X = a' ++ tag ++ b
  | [], a, _, h => ⟨a, h⟩
  | c :: p, [], hp, h => by
    cases tag with
    | nil => simp at ht
    | cons d tag => simp at ht h; simp [← h.1] at ht; simp [ht] at hp
  | c :: p, x :: a, hp, h => by
    simp only [List.cons_append, List.cons.injEq] at h
    exact occ_skip ht (by simp at hp; exact hp.2) h.2

/-- A character other than `<` in a tidied text was there before. -/
theorem tidyBreaks_unshift {br : Str} (hbr : Spec.IsBreak br) {s o : Str} {x : Char} (hx : x ≠ '<')
    (h : Spec.tidyBreaks br s = x :: o) : ∃ s', s = x :: s' ∧ Spec.tidyBreaks br s' = o := by
  unfold Spec.tidyBreaks at h
  split at h
  · rcases hbr with rfl | rfl <;> split at h <;> simp at h <;> exact absurd h.1.symm hx
  · rcases hbr with rfl | rfl <;> split at h <;> simp at h <;> exact absurd h.1.symm hx
  · simp at h; exact ⟨_, by rw [h.1], h.2⟩
  · simp at h

theorem tidyBreaks_nl {br t : Str} (h : t.head? = some '\n') :
    (Spec.tidyBreaks br t).head? = some '\n' := by
  cases t with
  | nil => simp at h
  | cons c t => simp at h; subst h; simp [Spec.tidyBreaks]

/-- Every break tag in a tidied text is followed by a newline, or was the end. -/
theorem tidyBreaks_spec {br : Str} (hbr : Spec.IsBreak br) (s : Str) : ∀ (a tag b : Str),
    Spec.IsBreak tag → Spec.tidyBreaks br s = a ++ tag ++ b → b.head? = some '\n' := by
  have hd : ∀ {tag : Str}, Spec.IsBreak tag → tag.head? = some '<' := by
    rintro tag (rfl | rfl) <;> rfl
  fun_induction Spec.tidyBreaks br s with
  | case1 t ih =>
    intro a tag b ht h
    split at h
    · rename_i hn
      cases a with
      | nil =>
        rcases ht with rfl | rfl <;> simp at h
        rw [← h]; exact tidyBreaks_nl hn
      | cons x a =>
        simp only [List.cons_append, List.cons.injEq] at h
        obtain ⟨a', h'⟩ := occ_skip (p := t!"br>") (hd ht) (by decide) h.2
        exact ih a' tag b ht h'
    · cases a with
      | nil => rcases ht with rfl | rfl <;> rcases hbr with rfl | rfl <;> simp at h <;> rw [← h] <;> rfl
      | cons x a =>
        have : ∃ a', Spec.tidyBreaks br t = a' ++ tag ++ b := by
          rcases hbr with rfl | rfl
          · simp only [List.cons_append, List.cons.injEq] at h
            exact occ_skip (p := t!"br>\n") (hd ht) (by decide) h.2
          · simp only [List.cons_append, List.cons.injEq] at h
            exact occ_skip (p := t!"br />\n") (hd ht) (by decide) h.2
        obtain ⟨a', h'⟩ := this
        exact ih a' tag b ht h'
  | case2 t ih =>
    intro a tag b ht h
    split at h
    · rename_i hn
      cases a with
      | nil =>
        rcases ht with rfl | rfl <;> simp at h
        rw [← h]; exact tidyBreaks_nl hn
      | cons x a =>
        simp only [List.cons_append, List.cons.injEq] at h
        obtain ⟨a', h'⟩ := occ_skip (p := t!"br />") (hd ht) (by decide) h.2
        exact ih a' tag b ht h'
    · cases a with
      | nil => rcases ht with rfl | rfl <;> rcases hbr with rfl | rfl <;> simp at h <;> rw [← h] <;> rfl
      | cons x a =>
        have : ∃ a', Spec.tidyBreaks br t = a' ++ tag ++ b := by
          rcases hbr with rfl | rfl
          · simp only [List.cons_append, List.cons.injEq] at h
            exact occ_skip (p := t!"br>\n") (hd ht) (by decide) h.2
          · simp only [List.cons_append, List.cons.injEq] at h
            exact occ_skip (p := t!"br />\n") (hd ht) (by decide) h.2
        obtain ⟨a', h'⟩ := this
        exact ih a' tag b ht h'
  | case3 c t h1 h2 ih =>
    intro a tag b ht h
    cases a with
    | cons x a =>
      simp only [List.cons_append, List.cons.injEq] at h
      exact ih a tag b ht h.2
    | nil =>
      rcases ht with rfl | rfl
      · simp at h
        obtain ⟨t1, e1, k1⟩ := tidyBreaks_unshift hbr (by decide) h.2
        obtain ⟨t2, e2, k2⟩ := tidyBreaks_unshift hbr (by decide) k1
        obtain ⟨t3, e3, k3⟩ := tidyBreaks_unshift hbr (by decide) k2
        exact absurd (by rw [e1, e2, e3]) (h1 t3 h.1)
      · simp at h
        obtain ⟨t1, e1, k1⟩ := tidyBreaks_unshift hbr (by decide) h.2
        obtain ⟨t2, e2, k2⟩ := tidyBreaks_unshift hbr (by decide) k1
        obtain ⟨t3, e3, k3⟩ := tidyBreaks_unshift hbr (by decide) k2
        obtain ⟨t4, e4, k4⟩ := tidyBreaks_unshift hbr (by decide) k3
        obtain ⟨t5, e5, k5⟩ := tidyBreaks_unshift hbr (by decide) k4
        exact absurd (by rw [e1, e2, e3, e4, e5]) (h2 t5 h.1)
  | case4 => intro a tag b ht h; rcases ht with rfl | rfl <;> simp at h

/-- **C03.** In the output every break tag is followed by a newline, or is at the
very end. -/
theorem C03_breaks (E : Env) (fuel : Nat) (t t' : Textile) (text out : Str)
    (hb : ¬ Spec.Blank text) (h : t.parse E fuel text = .ok (out, t')) (a tag b : Str)
    (ht : Spec.IsBreak tag) (ho : out = a ++ tag ++ b) : b = [] ∨ b.head? = some '\n' := by
  obtain ⟨x, rfl⟩ := parse_ok_inv hb h
  rw [finish_eq, ← dropFinalNewlines_eq] at ho
  obtain ⟨w, h1, h2⟩ := trimEndP_spec (· == '\n') (Spec.tidyBreaks t.cfg.brTag
    (match t.cfg.sanitizer with | some f => f x | none => x))
  rw [ho, List.append_assoc] at h1
  have hbr : Spec.IsBreak t.cfg.brTag := by
    unfold Cfg.brTag; split
    · exact .inl rfl
    · exact .inr rfl
  have := tidyBreaks_spec hbr _ a tag (b ++ w) ht h1
  cases b with
  | nil => exact .inl rfl
  | cons c b => exact .inr (by simpa using this)

/-- A text whose output contains break tags. -/
example : parseFresh demoEnv 100 demoCfg t!"a<br>b" = .ok t!"<p>a<br>\nb</p>" := by decide +kernel

/-! ## C04 -/

set_option smartUnfolding false in
/-- The text handed to the sanitizer does not depend on the sanitizer. -/
theorem parseBody_sanitizer (E : Env) (fuel : Nat) (cfg : Cfg) (f : Option (Str → Str)) :
    parseBody ⟨E, { cfg with sanitizer := f }, fuel⟩ = parseBody ⟨E, cfg, fuel⟩ := by
  with_unfolding_all rfl

/-- Running does not depend on the sanitizer. -/
theorem run_sanitizer (E : Env) (fuel : Nat) (cfg : Cfg) (f : Option (Str → Str)) {α : Type}
    (p : Prog α) : ∀ w, run ⟨E, { cfg with sanitizer := f }, fuel⟩ p w = run ⟨E, cfg, fuel⟩ p w := by
  induction p with
  | ret a => intro w; rfl
  | fail e => intro w; rfl
  | shelve kd v k ih => intro w; simp only [run, ih]
  | cacheRef kd v k ih => intro w; simp only [run, ih]
  | incLink k ih => intro w; simp only [run, ih]
  | setFootnote a b k ih => intro w; simp only [run, ih]
  | setAux g k ih => intro w; simp only [run, ih]
  | spanEnter k ih => intro w; simp only [run, ih]
  | spanLeave k ih => intro w; simp only [run, ih]
  | getSt k ih => intro w; simp only [run, ih]
  | getPat s k ih => intro w; simp only [run, ih]
  | probe u k ih => intro w; simp only [run, ih]

/-- **C04.** For every text there is a `body` (or failure) that does not depend on
the sanitizer, such that for every sanitizer the output is the sanitized body with
tidied break tags and without final newlines. -/
theorem C04_sanitizer (E : Env) (fuel : Nat) (cfg : Cfg) (text : Str) (hb : ¬ Spec.Blank text) :
    ∃ body : R Str, ∀ f : Option (Str → Str),
      parseFresh E fuel { cfg with sanitizer := f } text =
        body.map (fun b => Spec.dropFinalNewlines
          (Spec.tidyBreaks (if cfg.html5 then t!"<br>" else t!"<br />") (f.getD id b))) := by
  refine ⟨(run ⟨E, cfg, fuel⟩ (parseBody ⟨E, cfg, fuel⟩ (prepare ⟨E, cfg, fuel⟩ text)) {}).map (·.1), ?_⟩
  intro f
  unfold parseFresh
  rw [parse_nonblank hb]
  rw [run_sanitizer, parseBody_sanitizer]
  change (match (match run ⟨E, cfg, fuel⟩ (parseBody ⟨E, cfg, fuel⟩ (prepare ⟨E, cfg, fuel⟩ text)) {} with
      | .ok (b, w) => Except.ok (finish ⟨E, { cfg with sanitizer := f }, fuel⟩ b, _)
      | .error e => .error e : R (Str × Textile)) with | .ok (s, _) => _ | .error e => _) = _
  cases run ⟨E, cfg, fuel⟩ (parseBody ⟨E, cfg, fuel⟩ (prepare ⟨E, cfg, fuel⟩ text)) {} with
  | error e => rfl
  | ok q =>
    simp only [finish_eq, Except.map]
    cases f <;> rfl

example : parseFresh demoEnv 100 { demoCfg with sanitizer := some (List.filter (· != 'b')) } t!"a<br>b" =
    .ok t!"<p>a<r></p>" := by decide +kernel

end Rustextile
