import Verif.AnchorRe

/-!
# Texts with links with attributes and titles

Before links are looked for, nothing happens to such a text.
-/

namespace Rustextile

open Prog

/-- The characters of the texts of links but spaces. -/
def wrdA : Alpha := ⟨asciiAlnum ++ t!",./$", true⟩
def clsB : Alpha := ⟨asciiAlnum ++ t!"-_#:", false⟩
def styB : Alpha := ⟨asciiAlnum ++ t!"-_#:%,!;", false⟩

/-- Texts with links. -/
def anM : Auto := [
  (true, [(linesA, 0), (oneA '"', 1)]),
  (false, [(oneA '(', 2), (oneA '{', 3), (oneA '[', 9), (wrdA, 7)]),
  (false, [(clsB, 5)]),
  (false, [(styB, 6)]),
  (false, []),
  (false, [(clsA, 5), (oneA ')', 8)]),
  (false, [(styA, 6), (oneA '}', 8)]),
  (false, [(wrdA, 10), (oneA '(', 11), (oneA '"', 12)]),
  (false, [(oneA '(', 5), (oneA '{', 6), (oneA '[', 9), (wrdA, 7)]),
  (false, [(lanA, 9), (oneA ']', 8)]),
  (false, [(wrdA, 10), (oneA ' ', 13), (oneA '(', 11), (oneA '"', 12)]),
  (false, [(titA, 11), (oneA ' ', 14), (oneA ')', 15)]),
  (false, [(oneA ':', 16)]),
  (false, [(wrdA, 10), (oneA ' ', 13)]),
  (false, [(ttlA, 11), (oneA ' ', 14), (oneA ')', 15)]),
  (false, [(oneA '"', 12)]),
  (false, [(addrA, 17), (oneA '=', 18)]),
  (true, [(addrA, 17), (oneA '=', 18), (⟨t!" \n.,", false⟩, 0)]),
  (false, [(addrA, 17)])]

def anPatterns : List Re := earlyPatterns.filter (fun r => r != IMAGE_RE && r != SLICE_RE)

set_option maxRecDepth 100000 in
theorem anM_ok : anM.wf = true ∧ anPatterns.all (anM.avoids ·) = true ∧ anM.avoids NOTEDEF_RE = true ∧
    anM.avoids DIVIDER_RE = true := by
  decide +kernel

/-! ## The text that is seen -/

/-- A link as it is seen; in restricted mode it has been escaped. -/
def anchorSeen (r : Bool) (a : Spec.Anchor) : AnSeen := ⟨a.groups, a.written, a.title.map (seenTitle r)⟩

/-- What is written as the text. -/
theorem anchor_written {up : Char → Bool} {a : Spec.Anchor} {s : Str} (h : a.Ok up s) : (∀ c ∈ a.written, Spec.ordinaryChar c = true) ∧
    (∃ c u, a.written = c :: u ∧ c ≠ ' ' ∧ u.head? ≠ some ' ') ∧ ∀ u, a.written ≠ u ++ [' '] := by
  unfold Spec.Anchor.written
  split
  · refine ⟨by decide, ⟨'$', [], rfl, by decide, by simp⟩, ?_⟩
    intro u e
    have := congrArg List.getLast? e
    rw [List.getLast?_concat] at this
    simp at this
  · exact ⟨h.link.words.chars, h.link.first, h.link.last⟩

def anLk (r : Bool) (p : Spec.Anchor × Str) : Lk := ((anchorSeen r p.1).inner, p.1.url, p.2)

/-- The text that is seen. -/
def anSeen (r : Bool) (t : Spec.AnText) : Str := t.lead ++ lkText (t.parts.map (anLk r))

theorem group_body {g : Spec.Group} (h : g.Ok) :
    (∃ k, g.source = '(' :: (k ++ [')']) ∧ clsA.Over k ∧ k ≠ [] ∧ ((∀ n i, g = .classes n i → n.head? ≠ some ' ') → k.head? ≠ some ' ')) ∨
    (∃ k, g.source = '{' :: (k ++ ['}']) ∧ styA.Over k ∧ k ≠ [] ∧ k.head? ≠ some ' ') ∨ (∃ k, g.source = '[' :: (k ++ [']']) ∧ lanA.Over k) := by
  cases g with
  | classes n j =>
    have k1 : clsA.Over n := by
      intro c hc
      rcases h.1 c hc with h | rfl
      · exact .inl ((by decide : ∀ c ∈ nameChars, c ∈ clsA.ascii) c (name_mem h))
      · exact .inl (by decide)
    refine .inl ?_
    cases j with
    | none => exact ⟨n, by simp [Spec.Group.source], k1, fun e => h.2.1 e rfl, fun hh => hh n none rfl⟩
    | some j =>
      refine ⟨n ++ ('#' :: j), by simp [Spec.Group.source], ?_, by simp, fun hh => ?_⟩
      · intro c hc
        simp at hc
        rcases hc with hc | rfl | hc
        · exact k1 c hc
        · exact .inl (by decide)
        · rcases (h.2.2 j rfl).2 c hc with h | rfl
          · exact .inl ((by decide : ∀ c ∈ nameChars, c ∈ clsA.ascii) c (name_mem h))
          · exact .inl (by decide)
      · have := hh n (some j) rfl
        cases n with
        | nil => simp
        | cons d n => simpa using this
  | style ds =>
    have k : styA.Over (Spec.join [';'] ds) := by
      intro c hc
      rcases mem_join hc with hc | ⟨d, hd, hc⟩
      · simp at hc; subst hc; exact .inl (by decide)
      · exact .inl ((by decide : ∀ c ∈ styleChars, c ∈ styA.ascii) c (style_mem ((h.2 d hd).2.2.2 c hc)))
    obtain ⟨d, ds', rfl⟩ := List.exists_cons_of_ne_nil h.1
    obtain ⟨g1, g2, -⟩ := h.2 d (by simp)
    obtain ⟨c, d', rfl⟩ := List.exists_cons_of_ne_nil g1
    have e : ∃ r, Spec.join [';'] ((c :: d') :: ds') = c :: r := by
      cases ds' with
      | nil => exact ⟨d', rfl⟩
      | cons x ds' => exact ⟨_, rfl⟩
    obtain ⟨r, e⟩ := e
    exact .inr (.inl ⟨_, by simp [Spec.Group.source], k, by rw [e]; simp, by rw [e]; simpa using g2⟩)
  | lang l =>
    exact .inr (.inr ⟨l, by simp [Spec.Group.source], fun c hc => .inl ((by decide : ∀ c ∈ nameChars, c ∈ lanA.ascii) c (name_mem (h.2 c hc)))⟩)

theorem anGroup_run {g : Spec.Group} (h : g.Ok) {rest : Str} (hr : anM.Run 8 rest) :
    anM.Run 8 (g.source ++ rest) ∧ ((∀ n i, g = .classes n i → n.head? ≠ some ' ') → anM.Run 1 (g.source ++ rest)) := by
  rcases group_body h with ⟨k, e, h1, h2, h3⟩ | ⟨k, e, h1, h2, h3⟩ | ⟨k, e, h1⟩
  · rw [e]
    have hc : ∀ w, clsA.Over w → anM.Run 5 (w ++ (')' :: rest)) := fun w hw =>
      run_loop (A := clsA) (by simp [anM, Auto.step]) (run_one (q' := 8) (by simp [anM, Auto.step]) hr) hw
    refine ⟨?_, fun hh => ?_⟩
    · have := run_one (M := anM) (q := 8) (q' := 5) (c := '(') (by simp [anM, Auto.step]) (hc k h1)
      simpa using this
    · obtain ⟨c, u, rfl⟩ := List.exists_cons_of_ne_nil h2
      have hne : c ≠ ' ' := by intro e; subst e; exact h3 hh rfl
      have hm : clsB.Mem c := by
        rcases h1 c (by simp) with hA | hA
        · exact .inl (((by decide : ∀ c ∈ clsA.ascii, c ∈ clsB.ascii ∨ c = ' ') c hA).resolve_right hne)
        · cases hA.1
      have : anM.Run 2 (c :: (u ++ (')' :: rest))) := ⟨(clsB, 5), by simp [anM, Auto.step], hm, hc u (fun x hx => h1 x (by simp [hx]))⟩
      have := run_one (M := anM) (q := 1) (q' := 2) (c := '(') (by simp [anM, Auto.step]) this
      simpa using this
  · rw [e]
    have hc : ∀ w, styA.Over w → anM.Run 6 (w ++ ('}' :: rest)) := fun w hw =>
      run_loop (A := styA) (by simp [anM, Auto.step]) (run_one (q' := 8) (by simp [anM, Auto.step]) hr) hw
    refine ⟨?_, fun hh => ?_⟩
    · have := run_one (M := anM) (q := 8) (q' := 6) (c := '{') (by simp [anM, Auto.step]) (hc k h1)
      simpa using this
    · obtain ⟨c, u, rfl⟩ := List.exists_cons_of_ne_nil h2
      have hne : c ≠ ' ' := by intro e; subst e; exact h3 rfl
      have hm : styB.Mem c := by
        rcases h1 c (by simp) with hA | hA
        · exact .inl (((by decide : ∀ c ∈ styA.ascii, c ∈ styB.ascii ∨ c = ' ') c hA).resolve_right hne)
        · cases hA.1
      have : anM.Run 3 (c :: (u ++ ('}' :: rest))) := ⟨(styB, 6), by simp [anM, Auto.step], hm, hc u (fun x hx => h1 x (by simp [hx]))⟩
      have := run_one (M := anM) (q := 1) (q' := 3) (c := '{') (by simp [anM, Auto.step]) this
      simpa using this
  · rw [e]
    have hc : anM.Run 9 (k ++ (']' :: rest)) :=
      run_loop (A := lanA) (by simp [anM, Auto.step]) (run_one (q' := 8) (by simp [anM, Auto.step]) hr) h1
    refine ⟨?_, fun _ => ?_⟩
    · have := run_one (M := anM) (q := 8) (q' := 9) (c := '[') (by simp [anM, Auto.step]) hc
      simpa using this
    · have := run_one (M := anM) (q := 1) (q' := 9) (c := '[') (by simp [anM, Auto.step]) hc
      simpa using this

theorem anGroups_run {rest : Str} (hr : anM.Run 8 rest) : ∀ {gs : List Spec.Group}, (∀ g ∈ gs, g.Ok) → anM.Run 8 (gs.flatMap Spec.Group.source ++ rest)
  | [], _ => hr
  | g :: gs, h => by
    have ih := anGroups_run hr (gs := gs) (fun x hx => h x (by simp [hx]))
    rw [List.flatMap_cons, List.append_assoc]
    exact (anGroup_run (h g (by simp)) ih).1

theorem anGroups_first {rest : Str} (hr : anM.Run 8 rest) (hr' : anM.Run 1 rest) {gs : List Spec.Group} (h : ∀ g ∈ gs, g.Ok)
    (hs : ∀ n i gs', gs = .classes n i :: gs' → n.head? ≠ some ' ') : anM.Run 1 (gs.flatMap Spec.Group.source ++ rest) := by
  cases gs with
  | nil => exact hr'
  | cons g gs =>
    have ih := anGroups_run hr (gs := gs) (fun x hx => h x (by simp [hx]))
    rw [List.flatMap_cons, List.append_assoc]
    exact (anGroup_run (h g (by simp)) ih).2 (fun n i e => hs n i gs (by rw [e]))

theorem anTitle_run {rest : Str} (hr : anM.Run 15 rest) : ∀ {t : Str}, titA.Over (t.filter (· ≠ ' ')) → ¬ [' ', '\''] <:+: t →
    anM.Run 11 (t ++ (')' :: rest)) ∧ (t.head? ≠ some '\'' → anM.Run 14 (t ++ (')' :: rest)))
  | [], _, _ =>
    ⟨run_one (q' := 15) (by simp [anM, Auto.step]) hr, fun _ => run_one (q' := 15) (by simp [anM, Auto.step]) hr⟩
  | c :: t, h, hn => by
    obtain ⟨i1, i2⟩ := anTitle_run hr (t := t) (fun x hx => h x (by simp at hx ⊢; exact ⟨.inr hx.1, hx.2⟩))
      (fun h => hn (h.trans (List.suffix_cons c t).isInfix))
    by_cases hc : c = ' '
    · subst hc
      have : anM.Run 14 (t ++ (')' :: rest)) := i2 (by
        cases t with
        | nil => simp
        | cons d t =>
          intro e; simp at e; subst e
          exact hn ⟨[], t, rfl⟩)
      exact ⟨run_one (q' := 14) (by simp [anM, Auto.step]) this, fun _ => run_one (q' := 14) (by simp [anM, Auto.step]) this⟩
    · have hm := h c (by simp [hc])
      refine ⟨⟨(titA, 11), by simp [anM, Auto.step], hm, i1⟩, fun hh => ⟨(ttlA, 11), by simp [anM, Auto.step], ?_, i1⟩⟩
      rcases hm with hm | hm
      · refine .inl ?_
        have := (by decide : ∀ c ∈ titA.ascii, c = '\'' ∨ c ∈ ttlA.ascii) c hm
        rcases this with rfl | h
        · exact absurd rfl hh
        · exact h
      · exact .inr hm

theorem anWords_run {R : Str} (hr : anM.Run 10 R) : ∀ {u : Str}, (∀ c ∈ u, wrdA.Mem c ∨ c = ' ') → u.getLast? ≠ some ' ' →
    anM.Run 10 (u ++ R) ∧ (u ≠ [] → anM.Run 13 (u ++ R))
  | [], _, _ => ⟨hr, fun h => absurd rfl h⟩
  | c :: u, h, hl => by
    obtain ⟨i1, i2⟩ := anWords_run hr (u := u) (fun x hx => h x (by simp [hx])) (fun e => hl (by rw [List.getLast?_cons, e]; rfl))
    rcases h c (by simp) with hc | rfl
    · exact ⟨⟨(wrdA, 10), by simp [anM, Auto.step], hc, i1⟩, fun _ => ⟨(wrdA, 10), by simp [anM, Auto.step], hc, i1⟩⟩
    · have hne : u ≠ [] := by rintro rfl; exact hl rfl
      exact ⟨run_one (q' := 13) (by simp [anM, Auto.step]) (i2 hne), fun _ => run_one (q' := 13) (by simp [anM, Auto.step]) (i2 hne)⟩

theorem plain_wrd {c : Char} (h : plainA.Mem c) : wrdA.Mem c ∨ c = ' ' := by
  rcases h with h | h
  · exact ((by decide : ∀ c ∈ plainA.ascii, c ∈ wrdA.ascii ∨ c = ' ') c h).imp .inl id
  · exact .inl (.inr ⟨rfl, h.2⟩)

theorem anText_run {U : Uni} {t : Str} {R : Str} (hw : ∀ c ∈ t, wrdA.Mem c ∨ c = ' ') (hf : ∃ c u, t = c :: u ∧ c ≠ ' ' ∧ u.head? ≠ some ' ')
    (hl : ∀ u, t ≠ u ++ [' ']) (h7 : anM.Run 7 R) (h10 : anM.Run 10 R) {p : Nat} (hp : (wrdA, 7) ∈ anM.step p) : anM.Run p (t ++ R) := by
  obtain ⟨c, u, rfl, hc, hu⟩ := hf
  refine ⟨(wrdA, 7), hp, (hw c (by simp)).resolve_right hc, ?_⟩
  cases u with
  | nil => exact h7
  | cons d v =>
    have hd : d ≠ ' ' := fun e => hu (by rw [e]; rfl)
    refine ⟨(wrdA, 10), by simp [anM, Auto.step], (hw d (by simp)).resolve_right hd, ?_⟩
    refine (anWords_run h10 (u := v) (fun x hx => hw x (by simp [hx])) ?_).1
    intro e
    obtain ⟨w, rfl⟩ := List.getLast?_eq_some_iff.1 e
    exact hl (c :: d :: w) (by simp)

theorem anUrl_run {u rest : Str} (hc : ∀ c ∈ u, Spec.urlChar c = true) (hn : ¬ ['=', '='] <:+: u) (hl : u.getLast? ≠ some '=') (hne : u ≠ []) (hr : anM.Run 17 rest) :
    anM.Run 16 (u ++ rest) := by
  have key := fun (v : Str) (h1 : v.getLast? ≠ some '=') (h2 : ∀ c ∈ v, Spec.urlChar c = true) (h3 : ¬ ['=', '='] <:+: v) =>
    run_addr (M := anM) (p := 17) (q := 18) (by simp [anM, Auto.step]) (by simp [anM, Auto.step]) (by simp [anM, Auto.step]) hr (u := v)
    (fun e => absurd e h1) h2 h3
  cases u with
  | nil => exact absurd rfl hne
  | cons c v =>
    have hlv : v.getLast? ≠ some '=' := fun e => hl (by rw [List.getLast?_cons, e]; rfl)
    obtain ⟨k1, k2⟩ := key v hlv (fun d hd => hc d (by simp [hd])) (fun h => hn (h.trans (List.suffix_cons c v).isInfix))
    rcases urlChar_addr (hc c (by simp)) with h | rfl
    · exact ⟨(addrA, 17), by simp [anM, Auto.step], h, k1⟩
    · refine run_one (q' := 18) (by simp [anM, Auto.step]) (k2 (by rintro rfl; exact hl rfl) ?_)
      intro e
      cases v with
      | nil => cases e
      | cons d v => simp at e; subst e; exact hn ⟨[], v, rfl⟩

theorem anchor_run {U : Uni} {a : Spec.Anchor} {s rest : Str} (h : a.Ok U.isLu s) (r : Bool) (hr : anM.Run 17 rest) :
    anM.Run 0 ('"' :: ((anchorSeen r a).inner ++ (t!"\":" ++ (a.url ++ rest)))) := by
  obtain ⟨uu, uc, ue, hu⟩ := h.link.urlEnd
  have k1 : anM.Run 12 (':' :: (a.url ++ rest)) := run_one (q' := 16) (by simp [anM, Auto.step])
    (anUrl_run h.link.chars h.link.noeq (by rw [ue, List.getLast?_concat]; intro e; simp at e; subst e; revert hu; decide) (by rw [ue]; simp) hr)
  have k2 : ∀ {p}, (oneA '(', 11) ∈ anM.step p → (oneA '"', 12) ∈ anM.step p →
      anM.Run p (Spec.inParens (a.title.map (seenTitle r)) ++ ('"' :: ':' :: (a.url ++ rest))) := by
    intro p hp1 hp2
    cases ht : a.title with
    | none => exact run_one hp2 k1
    | some t =>
      obtain ⟨h1, h2, h3⟩ := h.title t ht
      obtain ⟨g1, g2⟩ := escape_title h2 h3 r
      have := run_one hp1 (anTitle_run (run_one (q' := 12) (c := '"') (by simp [anM, Auto.step]) k1) g1 g2).1
      simpa [Spec.inParens] using this
  have k3 : ∀ {p}, (wrdA, 7) ∈ anM.step p → anM.Run p (a.written ++ (Spec.inParens (a.title.map (seenTitle r)) ++ ('"' :: ':' :: (a.url ++ rest)))) :=
    fun hp => anText_run (U := U) (fun c hc => plain_wrd (plainA_iff.2 ((anchor_written h).1 c hc))) (anchor_written h).2.1 (anchor_written h).2.2
      (k2 (by simp [anM, Auto.step]) (by simp [anM, Auto.step])) (k2 (by simp [anM, Auto.step]) (by simp [anM, Auto.step])) hp
  have k4 := anGroups_first (k3 (p := 8) (by simp [anM, Auto.step])) (k3 (p := 1) (by simp [anM, Auto.step])) h.atts.1 h.start
  have := run_one (M := anM) (q := 0) (q' := 1) (c := '"') (by simp [anM, Auto.step]) k4
  simpa [AnSeen.inner, anchorSeen, Spec.Anchor.atts] using this

theorem linkEnd_head {c : Char} {u : Str} (h : Spec.LinkEnd (c :: u)) : c ∈ t!" \n.," := by
  cases u with
  | nil => rcases h with h | h | h | h <;> subst h <;> decide
  | cons d u =>
    rcases h with h | h | ⟨h | h, -⟩ <;> subst h <;> decide

theorem anParts_run {U : Uni} : ∀ {ps : List (Spec.Anchor × Str)} (_ : ∀ p ∈ ps, p.1.Ok U.isLu p.2 ∧ Spec.Prose U.isLu p.2)
    (_ : ∀ p ∈ ps.dropLast, Spec.EndsInSpace p.2) (r : Bool), anM.Run 0 (lkText (ps.map (anLk r)))
  | [], _, _, _ => rfl
  | p :: ps, h, hb, r => by
    have ih := anParts_run (ps := ps) (fun q hq => h q (by simp [hq])) (fun q hq => hb q (by
      rw [List.dropLast_cons_of_ne_nil (by rintro rfl; cases hq)]
      exact List.mem_cons_of_mem _ hq)) r
    obtain ⟨h1, h2⟩ := h p (by simp)
    have hr : p.2 = [] → lkText (ps.map (anLk r)) = [] := by
      intro e
      cases ps with
      | nil => rfl
      | cons q ps =>
        obtain ⟨u, c, e', -⟩ := hb p (by simp)
        rw [e] at e'
        simp at e'
    rw [List.map_cons, lkText_cons]
    have hov := prose_over h2
    have haf := h1.link.follow
    refine anchor_run h1 r ?_
    show anM.Run 17 (p.2 ++ lkText (ps.map (anLk r)))
    cases hp : p.2 with
    | nil => rw [hr hp]; rfl
    | cons c u =>
      rw [hp] at haf hov
      have hc : c ∈ t!" \n.," := linkEnd_head haf
      exact ⟨(⟨t!" \n.,", false⟩, 0), by simp [anM, Auto.step], .inl hc, run_loop (A := linesA) (by simp [anM, Auto.step]) ih (fun x hx => hov x (by simp [hx]))⟩

theorem anSeen_run {U : Uni} {t : Spec.AnText} (h : t.Ok U.isLu) (r : Bool) : anM.Run 0 (anSeen r t) :=
  run_loop (A := linesA) (by simp [anM, Auto.step]) (anParts_run h.parts h.between r) (prose_over h.lead)

end Rustextile
