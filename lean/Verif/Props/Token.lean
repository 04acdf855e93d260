import Verif.NodeDoc
import Verif.Instances

/-!
# The internal token in texts: C34, the part that holds
-/

namespace Rustextile

/-- A word at the start of a text from which another was removed was there before, if no removed word is
followed by one of its own characters. -/
theorem prefix_removed {n : Str} (hn : n ≠ []) : ∀ (m : Nat) {s w : Str}, s.length < m → (∀ c ∈ n, ¬ (n ++ [c]) <:+: s) →
    (∀ c ∈ w, c ∈ n) → w <+: replaceStr n [] s → w <+: s
  | 0, _, _, h, _, _, _ => absurd h (by omega)
  | m + 1, [], w, _, _, _, hp => hp
  | m + 1, x :: t, w, hm, hs, hw, hp => by
    simp only [List.length_cons] at hm
    by_cases e : n.isPrefixOf (x :: t) = true
    · obtain ⟨t2, e2⟩ := isPrefixOf_iff.1 e
      rw [e2] at hp hs ⊢
      rw [replaceStr_hit hn, List.nil_append] at hp
      cases w with
      | nil => exact List.nil_prefix
      | cons c w =>
        exfalso
        obtain ⟨n0, n', hn'⟩ := List.exists_cons_of_ne_nil hn
        have key : ∀ d ∈ n, ∀ u, t2 = d :: u → False := fun d hd u hu => hs d hd ⟨[], u, by simp [hu]⟩
        cases t2 with
        | nil => simp [replaceStr, replaceAux] at hp
        | cons y t2 =>
          by_cases e3 : n.isPrefixOf (y :: t2) = true
          · obtain ⟨t3, e4⟩ := isPrefixOf_iff.1 e3
            rw [hn', List.cons_append] at e4
            injection e4 with e4 _
            exact key y (by rw [e4, hn']; simp) t2 rfl
          · rw [replaceStr_miss (by rw [Bool.eq_false_iff]; exact e3)] at hp
            have hcy : c = y := (List.cons_prefix_cons.1 hp).1
            exact key y (by rw [← hcy]; exact hw c (by simp)) t2 rfl
    · rw [replaceStr_miss (by rw [Bool.eq_false_iff]; exact e)] at hp
      cases w with
      | nil => exact List.nil_prefix
      | cons c w =>
        obtain ⟨rfl, hp2⟩ := List.cons_prefix_cons.1 hp
        refine List.cons_prefix_cons.2 ⟨rfl, prefix_removed hn m (by omega) (fun d hd hi => hs d hd (hi.trans (List.suffix_cons _ _).isInfix))
          (fun d hd => hw d (by simp [hd])) hp2⟩

theorem removed {n : Str} (hn : n ≠ []) : ∀ (m : Nat) {s : Str}, s.length < m → (∀ c ∈ n, ¬ (n ++ [c]) <:+: s) → ¬ n <:+: replaceStr n [] s
  | 0, _, h, _ => absurd h (by omega)
  | m + 1, [], _, _ => by
    intro h
    have : replaceStr n [] [] = [] := rfl
    rw [this] at h
    exact hn (List.infix_nil.1 h)
  | m + 1, x :: t, hm, hs => by
    simp only [List.length_cons] at hm
    by_cases e : n.isPrefixOf (x :: t) = true
    · obtain ⟨t2, e2⟩ := isPrefixOf_iff.1 e
      rw [e2, replaceStr_hit hn, List.nil_append]
      refine removed hn m ?_ (fun d hd hi => hs d hd (hi.trans ?_))
      · have := congrArg List.length e2
        have := List.length_pos_iff.2 hn
        simp at *; omega
      · rw [e2]; exact (List.suffix_append _ _).isInfix
    · rw [replaceStr_miss (by rw [Bool.eq_false_iff]; exact e)]
      intro h
      have hs' : ∀ c ∈ n, ¬ (n ++ [c]) <:+: t := fun d hd hi => hs d hd (hi.trans (List.suffix_cons _ _).isInfix)
      rcases List.infix_cons_iff.1 h with h | h
      · obtain ⟨n0, n', hn'⟩ := List.exists_cons_of_ne_nil hn
        have h0 := h
        rw [hn'] at h0
        obtain ⟨rfl, h1⟩ := List.cons_prefix_cons.1 h0
        rw [← hn'] at h1
        have := prefix_removed (w := n') hn (t.length + 1) (by omega) hs' (fun c hc => by rw [hn']; simp [hc]) h1
        have h2 : n <+: n0 :: t := by rw [hn']; exact List.cons_prefix_cons.2 ⟨rfl, this⟩
        exact e (List.isPrefixOf_iff_prefix.2 h2)
      · exact removed hn m (by omega) hs' h

/-! ## Normalising does not create words -/

theorem infix_unix {w : Str} (hn : '\n' ∉ w) : ∀ (m : Nat) {t : Str}, t.length < m → w <:+: Spec.unixNewlines t → w <:+: t := by
  have pre : ∀ {t w : Str}, '\n' ∉ w → w <+: Spec.unixNewlines t → w <+: t := by
    intro t
    induction t with
    | nil => intro w _ h; simpa [Spec.unixNewlines] using h
    | cons c t ih =>
      intro w hw h
      cases w with
      | nil => exact List.nil_prefix
      | cons d w =>
        have hd : d ≠ '\n' := fun e => hw (by simp [e])
        by_cases hc : c = '\r'
        · exfalso
          subst hc
          have : ∃ u, Spec.unixNewlines ('\r' :: t) = '\n' :: u := by
            cases t with
            | nil => exact ⟨_, rfl⟩
            | cons y t =>
              by_cases hy : y = '\n'
              · subst hy; exact ⟨_, rfl⟩
              · exact ⟨Spec.unixNewlines (y :: t), by rw [Spec.unixNewlines]; intro t' e; exact hy (by injection e)⟩
          obtain ⟨u, hu⟩ := this
          rw [hu] at h
          exact hd (List.cons_prefix_cons.1 h).1
        · have : Spec.unixNewlines (c :: t) = c :: Spec.unixNewlines t := by
            rw [Spec.unixNewlines]
            · intro t' e; exact absurd e hc
            · intro e; exact hc e
          rw [this] at h
          obtain ⟨rfl, h2⟩ := List.cons_prefix_cons.1 h
          exact List.cons_prefix_cons.2 ⟨rfl, ih (fun hm => hw (by simp [hm])) h2⟩
  intro m
  induction m with
  | zero => intro t h; omega
  | succ m ih =>
    intro t hm h
    cases t with
    | nil => simpa [Spec.unixNewlines] using h
    | cons c t =>
      simp only [List.length_cons] at hm
      by_cases hp : w <+: Spec.unixNewlines (c :: t)
      · exact (pre hn hp).isInfix
      · by_cases hc : c = '\r'
        · subst hc
          cases t with
          | nil =>
            rw [show Spec.unixNewlines ['\r'] = ['\n'] from rfl] at h hp
            rcases List.infix_cons_iff.1 h with h | h
            · exact absurd h hp
            · rw [List.infix_nil.1 h]; exact List.nil_infix
          | cons y t =>
            by_cases hy : y = '\n'
            · subst hy
              rw [show Spec.unixNewlines ('\r' :: '\n' :: t) = '\n' :: Spec.unixNewlines t from rfl] at h hp
              rcases List.infix_cons_iff.1 h with h | h
              · exact absurd h hp
              · exact (ih (by simp at hm; omega) h).trans ((List.suffix_cons _ _).isInfix.trans (List.suffix_cons _ _).isInfix)
            · have e : Spec.unixNewlines ('\r' :: y :: t) = '\n' :: Spec.unixNewlines (y :: t) := by
                rw [Spec.unixNewlines]; intro t' e; exact hy (by injection e)
              rw [e] at h hp
              rcases List.infix_cons_iff.1 h with h | h
              · exact absurd h hp
              · exact (ih (by simp at hm ⊢; omega) h).trans (List.suffix_cons _ _).isInfix
        · have e : Spec.unixNewlines (c :: t) = c :: Spec.unixNewlines t := by
            rw [Spec.unixNewlines]
            · intro t' e; exact absurd e hc
            · intro e; exact hc e
          rw [e] at h hp
          rcases List.infix_cons_iff.1 h with h | h
          · exact absurd h hp
          · exact (ih (by omega) h).trans (List.suffix_cons _ _).isInfix

/-- A word in a text that has a separator lies on one side of it. -/
theorem infix_split {w a b : Str} {s : Char} (hs : s ∉ w) (h : w <:+: a ++ s :: b) : w <:+: a ∨ w <:+: b := by
  by_cases hw : w = []
  · subst hw; exact .inl List.nil_infix
  · have key : ∀ x : Str, containsStr w x = true ↔ w <:+: x := by
      intro x; rw [containsStr_iff]
      constructor
      · rintro ⟨a, b, e⟩; exact ⟨a, b, by rw [e]; simp⟩
      · rintro ⟨a, b, e⟩; exact ⟨a, b, by rw [← e]; simp⟩
    rw [← key] at h
    rw [← key, ← key]
    cases h1 : containsStr w a with
    | true => exact .inl rfl
    | false =>
      cases h2 : containsStr w b with
      | true => exact .inr rfl
      | false => rw [containsStr_sep hs hw h1 h2] at h; cases h

theorem infix_clear {w : Str} (hn : '\n' ∉ w) : ∀ (m : Nat) {t : Str}, t.length < m → w <:+: Spec.clearBlankLines t → w <:+: t := by
  intro m
  induction m with
  | zero => intro t h; omega
  | succ m ih =>
    intro t hm h
    rcases cut_lines t with hl | ⟨l, u, hl, rfl⟩
    · rw [clearBlankLines_noNl hl] at h; exact h
    · rw [clearBlankLines_cut hl] at h
      rcases infix_split hn h with h | h
      · split at h
        · rw [List.infix_nil.1 h]; exact List.nil_infix
        · exact h.trans (List.prefix_append _ _).isInfix
      · exact (ih (by simp at hm; omega) h).trans ((List.suffix_cons _ _).isInfix.trans (List.suffix_append _ _).isInfix)

theorem trim_infix (p : Char → Bool) (t : Str) : trimP p t <:+: t := by
  unfold trimP trimEndP trimStartP
  have h1 : t.dropWhile p <:+ t := List.dropWhile_suffix p
  have h2 : ((t.dropWhile p).reverse.dropWhile p) <:+ (t.dropWhile p).reverse := List.dropWhile_suffix p
  have h3 := List.reverse_prefix.2 h2
  rw [List.reverse_reverse] at h3
  exact h3.isInfix.trans h1.isInfix

/-- **C34, partial.** If the token is nowhere directly followed by one of its own characters, it is gone
after it has been removed. -/
theorem C34_removed_partial (C : Ctx) (base : Str) (hb : Spec.PlainBase base) (huid : C.cfg.uid = t!"textileRef:" ++ base ++ t!":")
    (text : Str) (h : ∀ c ∈ C.cfg.uid, ¬ (C.cfg.uid ++ [c]) <:+: text) : ¬ C.cfg.uid <:+: prepare C text := by
  have hu : C.cfg.uid = uidOf base := huid
  rw [hu] at h
  unfold prepare
  rw [hu]
  obtain ⟨c1, c2, -, -, c5, -, c7, c8⟩ := uid_chars hb
  refine removed c8 (_ + 1) (Nat.lt_succ_self _) ?_
  intro c hc hi
  have hn : '\n' ∉ uidOf base ++ [c] := by
    simp only [List.mem_append, List.mem_singleton, not_or]
    exact ⟨c5, fun e => c5 (by rw [e]; exact hc)⟩
  rw [normalize_eq] at hi
  have hi := infix_unix hn _ (Nat.lt_succ_self _) (infix_clear hn _ (Nat.lt_succ_self _) (hi.trans (trim_infix _ _)))
  split at hi
  · have h0 := containsStr_enc (q := false) (k := uidOf base ++ [c])
      (by simp only [List.mem_append, List.mem_singleton, not_or]; exact ⟨c1, fun e => c1 (by rw [e]; exact hc)⟩)
      (by simp only [List.mem_append, List.mem_singleton, not_or]; exact ⟨c2, fun e => c2 (by rw [e]; exact hc)⟩)
      (by simp [c7]) (contains_of_not (h c hc))
    obtain ⟨a, b, e⟩ := hi
    rw [containsStr_iff.2 ⟨a, b, by rw [← e]; simp⟩] at h0
    cases h0
  · exact h c hc hi

example : ¬ demoCfg.uid <:+: prepare ⟨demoEnv, demoCfg, 2⟩ t!"x textileRef:abc: y\r\n \nRef:textileRef:abc:" :=
  C34_removed_partial ⟨demoEnv, demoCfg, 2⟩ t!"abc" plainBase_demo rfl _ (by decide +kernel)

example : prepare ⟨demoEnv, demoCfg, 2⟩ t!"x textileRef:abc: y\r\n \nRef:textileRef:abc:" = t!"x  y\n\nRef:" := by decide +kernel

end Rustextile
