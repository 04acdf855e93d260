import Verif.Props.Wrong
import Verif.RegexCaps
import Verif.StrLemmas

/-!
# C49: the end of link URLs
-/

namespace Rustextile

/-! ## Lemmas about leaving out characters -/

theorem Omit.refl {p : Char → Prop} : ∀ t : Str, Spec.Omit p t t
  | [] => .nil
  | c :: t => .keep c (Omit.refl t)

theorem Omit.append {p : Char → Prop} {a b c d : Str} (h : Spec.Omit p a b) (h' : Spec.Omit p c d) :
    Spec.Omit p (a ++ c) (b ++ d) := by
  induction h with
  | nil => exact h'
  | keep x _ ih => exact .keep x ih
  | skip hx _ ih => exact .skip hx ih

theorem Omit.trans {p : Char → Prop} {a b : Str} (h : Spec.Omit p a b) : ∀ {c : Str}, Spec.Omit p b c → Spec.Omit p a c := by
  induction h with
  | nil => exact fun h => h
  | keep x _ ih =>
    intro c h'
    cases h' with
    | keep _ h' => exact .keep x (ih h')
    | skip hx h' => exact .skip hx (ih h')
  | skip hx _ ih => exact fun h' => .skip hx (ih h')

theorem Omit.mono {p q : Char → Prop} {a b : Str} (h : Spec.Omit p a b) (hpq : ∀ c ∈ a, p c → q c) : Spec.Omit q a b := by
  induction h with
  | nil => exact .nil
  | keep x _ ih => exact .keep x (ih (fun c hc => hpq c (List.mem_cons_of_mem _ hc)))
  | skip hx _ ih => exact .skip (hpq _ (by simp) hx) (ih (fun c hc => hpq c (List.mem_cons_of_mem _ hc)))

/-! ## The patterns -/

theorem alLookup_hit {n : Nat} {w : Str} {s : Caps} : alLookup n ((n, w) :: s) = some w := by simp [alLookup]

theorem tight_caps {U : Uni} {t : Str} {m : Mat} (h : URL_TIGHT_RE.captures U t = some m) : t = m.grp 1 ++ m.grp 2 := by
  obtain ⟨a, rest, e, -, ht⟩ := Re.captures_takes h
  rw [show URL_TIGHT_RE = .seq (.grp 1 (.seq .bot (.seq (.star true (.set true [.chr '\n'])) (.set false [.chr ']']))))
    (.seq (.grp 2 (.seq (.set false [.chr '[']) (.star false (.set true [.chr '\n'])))) .eot) from rfl] at ht
  obtain ⟨u, v, s1, e1, h1, h2⟩ := ht.seq
  obtain ⟨s2, h3, rfl⟩ := h1.grp
  obtain ⟨u', u2, s3, e2, h4, h5⟩ := h3.seq
  obtain ⟨ha, rfl, rfl⟩ := h4.bot
  obtain rfl := h5.nogrp rfl
  obtain ⟨v1, v2, s4, rfl, h6, h7⟩ := h2.seq
  obtain ⟨s5, h8, rfl⟩ := h6.grp
  obtain ⟨rfl, rfl, h9⟩ := h7.eot
  obtain rfl := h8.nogrp rfl
  have : a = [] := by simpa using ha
  subst this
  simp only [Mat.grp, Mat.get?, h9, alLookup]
  simpa using e.trans (by rw [e1]; simp)

theorem end_caps {U : Uni} {t : Str} {m : Mat} (h : URL_END_RE.captures U t = some m) : t = m.grp 1 ++ m.grp 2 := by
  obtain ⟨a, rest, e, -, ht⟩ := Re.captures_takes h
  rw [show URL_END_RE = .seq (.grp 1 (.seq .bot (.seq (.star true (.set true [.chr '\n'])) (.set false [.chr ']']))))
    (.seq (.look true (.set false [.chr '='])) (.seq (.grp 2 (.star false (.set true [.chr '\n']))) .eot)) from rfl] at ht
  obtain ⟨u, v, s1, e1, h1, h2⟩ := ht.seq
  obtain ⟨s2, h3, rfl⟩ := h1.grp
  obtain ⟨u', u2, s3, e2, h4, h5⟩ := h3.seq
  obtain ⟨ha, rfl, rfl⟩ := h4.bot
  obtain rfl := h5.nogrp rfl
  obtain ⟨v0, v0', s0, rfl, h0, h2⟩ := h2.seq
  obtain ⟨-, rfl, rfl⟩ := h0.look_neg
  obtain ⟨v1, v2, s4, rfl, h6, h7⟩ := h2.seq
  obtain ⟨s5, h8, rfl⟩ := h6.grp
  obtain ⟨rfl, rfl, h9⟩ := h7.eot
  obtain rfl := h8.nogrp rfl
  have : a = [] := by simpa using ha
  subst this
  simp only [Mat.grp, Mat.get?, h9, alLookup]
  simpa using e.trans (by rw [e1]; simp)

theorem tag_caps {U : Uni} {t : Str} {m : Mat} (h : URL_TAG_RE.captures U t = some m) : t = m.grp 1 ++ m.grp 2 := by
  obtain ⟨a, rest, e, -, ht⟩ := Re.captures_takes h
  rw [show URL_TAG_RE = .seq .bot (.seq (.grp 1 (.star true (.set true [.chr '\n'])))
    (.seq (.grp 2 (.seq (.set false [.chr '<']) (.seq (.set false [.chr '/'])
      (.seq (.set false [.range 'a' 'z']) (.star true (.set false [.range 'a' 'z'])))))) .eot)) from rfl] at ht
  obtain ⟨u, v, s1, e1, h1, h2⟩ := ht.seq
  obtain ⟨ha, rfl, rfl⟩ := h1.bot
  obtain ⟨u1, v1, s2, rfl, h3, h4⟩ := h2.seq
  obtain ⟨s3, h5, rfl⟩ := h3.grp
  obtain rfl := h5.nogrp rfl
  obtain ⟨u2, v2, s4, rfl, h6, h7⟩ := h4.seq
  obtain ⟨s5, h8, rfl⟩ := h6.grp
  obtain rfl := h8.nogrp rfl
  obtain ⟨rfl, rfl, h9⟩ := h7.eot
  have : a = [] := by simpa using ha
  subst this
  simp only [Mat.grp, Mat.get?, h9, alLookup]
  simpa using e.trans (by rw [e1]; simp)

theorem urlTight_eq (C : Ctx) (url : Str) : (urlTight C url).1 ++ (urlTight C url).2 = url := by
  unfold urlTight
  split
  · have h1 : ∀ p : Str × Str, p.1 ++ p.2 = url → (match URL_END_RE.captures C.U p.1 with
        | some m => (m.grp 1, m.grp 2 ++ p.2)
        | none => p).1 ++ (match URL_END_RE.captures C.U p.1 with
        | some m => (m.grp 1, m.grp 2 ++ p.2)
        | none => p).2 = url := by
      intro p hp
      split
      · rename_i m hm
        rw [← List.append_assoc, ← end_caps hm, hp]
      · exact hp
    apply h1
    split
    · rename_i m hm
      exact (tight_caps hm).symm
    · simp
  · simp

/-! ## The loop -/

/-- The counters, with the one for `]` set. -/
def Counts (m : CharCounter) : Prop := ∃ a b c d, m = [('[', a), (']', some b), ('(', c), (')', d)]

def urlTail (c : Char) : Prop := c ∈ t!"!?:;.,"

/-- What the loop does: it never fails; the rest of the URL and the text popped off are the
URL, except for `]` and `>`. -/
theorem popLoop_ok (U : Uni) (url : Str) : ∀ (f : Str) (first : Bool) (s : PopSt), Counts s.counts → s.chars.length < f.length →
    ∃ s', popLoop U url f first s = .ok s' ∧
      Spec.Omit (fun c => c = ']' ∨ c = '>') (s.chars.reverse ++ s.pop) (s'.chars.reverse ++ s'.pop) ∧
      s'.chars.reverse <+: s.chars.reverse ∧
      ('>' ∉ s.chars → ∀ c, s'.chars.head? = some c → ¬ urlTail c) ∧ (s'.pre = s.pre ∨ s'.pre = [])
  | [], _, _, _, h => by simp at h
  | _ :: f, first, s, hc, hf => by
    obtain ⟨chars, pop, counts, pre⟩ := s
    obtain ⟨a, b, c, d, rfl⟩ := hc
    unfold popLoop
    cases chars with
    | nil => exact ⟨_, rfl, Omit.refl _, List.prefix_refl _, by simp, .inl rfl⟩
    | cons x cs =>
      simp only [List.length_cons] at hf
      simp only
      split
      · rename_i hx
        obtain ⟨s', e, h1, h2, h3, h4⟩ := popLoop_ok U url f false ⟨cs, x :: pop, _, pre⟩ ⟨a, b, c, d, rfl⟩ (by simp only; omega)
        refine ⟨s', e, by simpa using h1, ?_, fun hg => h3 (fun h => hg (List.mem_cons_of_mem _ h)), h4⟩
        simp only [List.reverse_cons]
        exact h2.trans (List.prefix_append _ _)
      · rename_i hx
        split
        · rename_i hgt
          simp only [beq_iff_eq] at hgt
          subst hgt
          split
          · rename_i m hm
            have he := tag_caps hm
            have hlen : (m.grp 1).length ≤ cs.length := by
              have := congrArg List.length he
              simp at this; omega
            obtain ⟨s', e, h1, h2, h3, h4⟩ := popLoop_ok U url f false ⟨(m.grp 1).reverse, m.grp 2 ++ ['>'] ++ pop, _, pre⟩
              ⟨a, b, c, d, rfl⟩ (by simp only [List.length_reverse]; omega)
            refine ⟨s', e, ?_, ?_, fun hg => absurd (by simp) hg, h4⟩
            · simp only [List.reverse_cons]
              rw [he]
              simpa using h1
            · simp only [List.reverse_reverse] at h2
              simp only [List.reverse_cons]
              refine h2.trans ?_
              rw [he]
              simp
          · refine ⟨_, rfl, ?_, ?_, fun hg => absurd (by simp) hg, .inl rfl⟩
            · simp only [List.reverse_cons, List.append_assoc]
              exact Omit.append (Omit.refl _) (.skip (.inr rfl) (Omit.refl _))
            · simp only [List.reverse_cons]
              exact List.prefix_append _ _
        · rename_i hgt
          have htail : ¬ urlTail x := by
            intro h
            apply hx
            simp [urlTail] at h
            rcases h with rfl | rfl | rfl | rfl | rfl | rfl <;> rfl
          split
          · rename_i hb
            simp only [beq_iff_eq] at hb
            subst hb
            have stay : ∀ cc : CharCounter, ∃ s', (Except.ok ⟨']' :: cs, pop, cc, pre⟩ : R PopSt) = .ok s' ∧
                Spec.Omit (fun c => c = ']' ∨ c = '>') ((']' :: cs).reverse ++ pop) (s'.chars.reverse ++ s'.pop) ∧
                s'.chars.reverse <+: (']' :: cs).reverse ∧
                ('>' ∉ (']' :: cs) → ∀ c, s'.chars.head? = some c → ¬ urlTail c) ∧ (s'.pre = pre ∨ s'.pre = []) :=
              fun cc => ⟨_, rfl, Omit.refl _, List.prefix_refl _, fun _ c hc => by simp at hc; subst hc; exact htail, .inl rfl⟩
            have go : ∀ cc : CharCounter, Counts cc → ∃ s', popLoop U url f false ⟨cs, pop, cc, if first then [] else pre⟩ = .ok s' ∧
                Spec.Omit (fun c => c = ']' ∨ c = '>') ((']' :: cs).reverse ++ pop) (s'.chars.reverse ++ s'.pop) ∧
                s'.chars.reverse <+: (']' :: cs).reverse ∧
                ('>' ∉ (']' :: cs) → ∀ c, s'.chars.head? = some c → ¬ urlTail c) ∧ (s'.pre = pre ∨ s'.pre = []) := by
              intro cc hcc
              obtain ⟨s', e, h1, h2, h3, h4⟩ := popLoop_ok U url f false ⟨cs, pop, cc, if first then [] else pre⟩ hcc
                (by simp only; omega)
              refine ⟨s', e, ?_, ?_, fun hg => h3 (fun h => hg (List.mem_cons_of_mem _ h)), ?_⟩
              · simp only [List.reverse_cons, List.append_assoc]
                exact Omit.trans (Omit.append (Omit.refl _) (.skip (.inl rfl) (Omit.refl _))) h1
              · simp only [List.reverse_cons]
                exact h2.trans (List.prefix_append _ _)
              · cases first
                · exact h4
                · simp at h4; exact .inr h4
            cases a with
            | none =>
              by_cases hk : countChar '[' url = b
              · simpa [CharCounter.get, CharCounter.set, CharCounter.dec, pure, Except.pure, bind, Except.bind, hk] using stay []
              · simpa [CharCounter.get, CharCounter.set, CharCounter.dec, pure, Except.pure, bind, Except.bind, hk] using go _ ⟨_, _, _, _, rfl⟩
            | some a =>
              by_cases hk : a = b
              · simpa [CharCounter.get, CharCounter.set, CharCounter.dec, pure, Except.pure, bind, Except.bind, hk] using stay []
              · simpa [CharCounter.get, CharCounter.set, CharCounter.dec, pure, Except.pure, bind, Except.bind, hk] using go _ ⟨_, _, _, _, rfl⟩
          · rename_i hsb
            split
            · rename_i hb
              simp only [beq_iff_eq] at hb
              subst hb
              have stay : ∀ cc : CharCounter, ∃ s', (Except.ok ⟨')' :: cs, pop, cc, pre⟩ : R PopSt) = .ok s' ∧
                  Spec.Omit (fun c => c = ']' ∨ c = '>') ((')' :: cs).reverse ++ pop) (s'.chars.reverse ++ s'.pop) ∧
                  s'.chars.reverse <+: (')' :: cs).reverse ∧
                  ('>' ∉ (')' :: cs) → ∀ c, s'.chars.head? = some c → ¬ urlTail c) ∧ (s'.pre = pre ∨ s'.pre = []) :=
                fun cc => ⟨_, rfl, Omit.refl _, List.prefix_refl _, fun _ c hc => by simp at hc; subst hc; exact htail, .inl rfl⟩
              have go : ∀ cc : CharCounter, Counts cc → ∃ s', popLoop U url f false ⟨cs, ')' :: pop, cc, pre⟩ = .ok s' ∧
                  Spec.Omit (fun c => c = ']' ∨ c = '>') ((')' :: cs).reverse ++ pop) (s'.chars.reverse ++ s'.pop) ∧
                  s'.chars.reverse <+: (')' :: cs).reverse ∧
                  ('>' ∉ (')' :: cs) → ∀ c, s'.chars.head? = some c → ¬ urlTail c) ∧ (s'.pre = pre ∨ s'.pre = []) := by
                intro cc hcc
                obtain ⟨s', e, h1, h2, h3, h4⟩ := popLoop_ok U url f false ⟨cs, ')' :: pop, cc, pre⟩ hcc
                  (by simp only; omega)
                refine ⟨s', e, by simpa using h1, ?_, fun hg => h3 (fun h => hg (List.mem_cons_of_mem _ h)), h4⟩
                simp only [List.reverse_cons]
                exact h2.trans (List.prefix_append _ _)
              cases d with
              | none =>
                by_cases hk : countChar '(' url = countChar ')' url
                · simpa [CharCounter.get, CharCounter.set, CharCounter.dec, pure, Except.pure, bind, Except.bind, hk] using stay []
                · simpa [CharCounter.get, CharCounter.set, CharCounter.dec, pure, Except.pure, bind, Except.bind, hk] using go _ ⟨_, _, _, _, rfl⟩
              | some d =>
                by_cases hk : c = some d
                · simpa [CharCounter.get, CharCounter.set, CharCounter.dec, pure, Except.pure, bind, Except.bind, hk] using stay []
                · simpa [CharCounter.get, CharCounter.set, CharCounter.dec, pure, Except.pure, bind, Except.bind, hk] using go _ ⟨_, _, _, _, rfl⟩
            · exact ⟨_, rfl, Omit.refl _, List.prefix_refl _, fun _ c hc => by simp at hc; subst hc; exact htail, .inl rfl⟩

/-- **C49, partial.** For every text matched as a URL, cutting it never fails and gives the
URL proper, the characters popped off its end, and square-bracketed text after it.  Put
together they are the matched text, except for closing square brackets.  The URL is a
beginning of the matched text and does not end with a punctuation mark.

The full property also holds for texts with `>`, and only brackets without an opening
bracket may disappear; both are false (`C49_negation`, `C49_negation_brackets`). -/
theorem C49_url_end_partial (C : Ctx) (url pre : Str) (hgt : '>' ∉ url) :
    ∃ u pop tight pre', trimUrl C url pre = .ok (u, pop, tight, pre') ∧
      Spec.Omit (fun c => c = ']') url (u ++ pop ++ tight) ∧ u <+: url ∧
      (∀ c ∈ t!"!?:;.,", u.getLast? ≠ some c) ∧ (pre' = pre ∨ pre' = []) := by
  unfold trimUrl
  have hc : Counts [('[', none), (']', some (countChar ']' url)), ('(', none), (')', none)] := ⟨_, _, _, _, rfl⟩
  have he := urlTight_eq C url
  obtain ⟨s', e, h1, h2, h3, h4⟩ := popLoop_ok C.U (urlTight C url).1 (' ' :: (urlTight C url).1) true
    ⟨(urlTight C url).1.reverse, [], _, pre⟩ hc (by simp)
  refine ⟨s'.chars.reverse, s'.pop, (urlTight C url).2, s'.pre, ?_, ?_, ?_, ?_, h4⟩
  · simp only [CharCounter.new, CharCounter.set, List.map_cons, List.map_nil, bind, Except.bind, pure, Except.pure]
    simp only [show ('[' == ']') = false from rfl, show (']' == ']') = true from rfl, Bool.false_eq_true, if_false, if_true]
    rw [e]
  · simp only [List.reverse_reverse, List.append_nil] at h1
    have := Omit.append h1 (Omit.refl (urlTight C url).2)
    rw [he] at this
    refine Omit.mono this ?_
    rintro c hc (rfl | rfl)
    · rfl
    · exact absurd hc hgt
  · simp only [List.reverse_reverse] at h2
    exact h2.trans ⟨(urlTight C url).2, he⟩
  · intro c hc hl
    rw [List.getLast?_reverse] at hl
    refine h3 ?_ c hl hc
    intro hm
    apply hgt
    rw [← he]
    simp at hm
    simp [hm]

example : trimUrl ⟨demoEnv, demoCfg, 100⟩ t!"http://x/a(b)[c]!?][12]." t!"[" =
    .ok (t!"http://x/a(b)[c", t!"!?", t!"[12].", []) := by decide +kernel

/-- **C49, another negation.** A closing bracket disappears although it has an opening one:
the number of closing brackets is taken before the text after the URL is cut off. -/
theorem C49_negation_brackets :
    trimUrl ⟨demoEnv, demoCfg, 100⟩ t!"http://x/[a][1]" [] = .ok (t!"http://x/[a", [], t!"[1]", []) := by
  decide +kernel

end Rustextile
