import Verif.ListRe
import Verif.InlineDoc
import Verif.Props.Breaks

/-!
# A list becomes HTML

`fTextileList`, `doTagBr` and `textileLists` on the source of a list.
-/

namespace Rustextile

open Prog

/-! ## The expression for items -/

theorem star_any_split {U : Uni} {s : Caps} : ∀ (X R pre : Str), ∃ l1 l2,
    (Re.star true (.set true [])).all U ⟨pre, X ++ R⟩ s = l1 ++ (⟨X.reverse ++ pre, R⟩, s) :: l2 ∧
      ∀ p ∈ l1, ∃ u v, u ≠ [] ∧ R = u ++ v ∧ p = (⟨u.reverse ++ (X.reverse ++ pre), v⟩, s)
  | [], [], pre => ⟨[], [], by rw [List.nil_append, all_star_nil]; rfl, by simp⟩
  | [], x :: R, pre => by
    obtain ⟨l1, l2, h1, h2⟩ := star_any_split (U := U) (s := s) [] R (x :: pre)
    refine ⟨l1 ++ (⟨x :: pre, R⟩, s) :: l2, [], ?_, ?_⟩
    · rw [List.nil_append, all_star_cons]
      simp only [List.nil_append, List.reverse_nil] at h1
      rw [h1]
      simp [evalSet]
    · intro p hp
      have hl2 : ∀ p ∈ l1 ++ (⟨x :: pre, R⟩, s) :: l2, p ∈ (Re.star true (.set true [])).all U ⟨x :: pre, R⟩ s := by
        intro p hp
        simp only [List.nil_append, List.reverse_nil] at h1
        rw [h1]; exact hp
      obtain ⟨w, rest, e1, e2, h3⟩ := Takes.of_mem (hl2 p hp)
      have h4 := Re.all_adv U _ _ _ _ (hl2 p hp)
      refine ⟨x :: w, rest, by simp, by simp [e1], ?_⟩
      have hs : p.2 = s := by
        obtain ⟨-, -, -, h⟩ := mem_star_set.1 (hl2 p hp)
        exact h
      obtain ⟨p1, p2⟩ := p
      simp only at e2 hs
      rw [e2, hs]; simp
  | x :: X, R, pre => by
    obtain ⟨l1, l2, h1, h2⟩ := star_any_split (U := U) (s := s) X R (x :: pre)
    refine ⟨l1, l2 ++ [(⟨pre, x :: (X ++ R)⟩, s)], ?_, ?_⟩
    · rw [List.cons_append, all_star_cons, h1]
      simp [evalSet]
    · intro p hp
      obtain ⟨u, v, h3, h4, h5⟩ := h2 p hp
      exact ⟨u, v, h3, h4, by rw [h5]; simp⟩

/-- A greedy group that takes everything up to the last text matching `K`. -/
theorem Heads.last {U : Uni} {n : Nat} {K : Re} {pre X D Z : Str} {s s' : Caps}
    (hK : Heads U K (X.reverse ++ pre) D Z ((n, X) :: s) s')
    (hno : ∀ u v p s, u ≠ [] → D ++ Z = u ++ v → K.all U ⟨p, v⟩ s = []) :
    Heads U (.seq (.grp n (.star true (.set true []))) K) pre (X ++ D) Z s s' := by
  obtain ⟨l1, l2, h1, h2⟩ := star_any_split (U := U) (s := s) X (D ++ Z) pre
  obtain ⟨l, hl⟩ := hK
  have hb : between ⟨pre, X ++ (D ++ Z)⟩ ⟨X.reverse ++ pre, D ++ Z⟩ = X :=
    Adv.between (⟨rfl, rfl⟩ : Adv ⟨pre, X ++ (D ++ Z)⟩ X ⟨X.reverse ++ pre, D ++ Z⟩)
  refine ⟨l ++ (l2.map (fun p => (p.1, (n, between ⟨pre, X ++ (D ++ Z)⟩ p.1) :: p.2))).flatMap (fun p => K.all U p.1 p.2), ?_⟩
  rw [List.append_assoc, all_seq, Re.all, h1]
  simp only [List.map_append, List.map_cons, List.flatMap_append, List.flatMap_cons, hb, hl]
  have : (l1.map (fun p => (p.1, (n, between ⟨pre, X ++ (D ++ Z)⟩ p.1) :: p.2))).flatMap (fun p => K.all U p.1 p.2) = [] := by
    rw [List.flatMap_eq_nil_iff]
    intro p hp
    obtain ⟨q, hq, rfl⟩ := List.mem_map.1 hp
    obtain ⟨u, v, h3, h4, h5⟩ := h2 q hq
    subst h5
    exact hno u v _ _ h3 h4
  rw [this]
  simp

theorem Heads.chr {U : Uni} {d : Char} {pre rest : Str} {s : Caps} : Heads U (.set false [.chr d]) pre [d] rest s s :=
  .set (by rw [evalSet_chr]; simp)

theorem TAG_LI_shape : TAG_LI_RE = .seq (.set false [.chr '<']) (.seq (.set false [.chr 'l']) (.seq (.set false [.chr 'i'])
    (.seq (.grp 1 (.star false (.set true [.chr '>']))) (.seq (.set false [.chr '>'])
      (.seq (.grp 2 (.star true (.set true []))) (Re.lit t!"</li>")))))) := by kernel_rfl

theorem LI_none {U : Uni} {pre v : Str} {x : Char} (h : x ≠ '<' ∨ v.head? ≠ some 'l') : TAG_LI_RE.matchAt U ⟨pre, x :: v⟩ = none := by
  rw [Re.matchAt_none, TAG_LI_shape, all_seq, all_set_cons, evalSet_chr]
  by_cases hx : x = '<'
  · subst hx
    have h := h.resolve_left (by simp)
    simp only [BEq.rfl, if_true, List.flatMap_cons, List.flatMap_nil, List.append_nil]
    rw [all_seq]
    cases v with
    | nil => simp [Re.all]
    | cons y v =>
      have : y ≠ 'l' := by simpa using h
      simp [all_set_cons, evalSet_chr, this]
  · simp [hx]

/-- From the first `<li>` to the last `</li>`. -/
theorem LI_match {U : Uni} {pre X Z : Str} (hZ : 'i' ∉ Z) :
    TAG_LI_RE.matchAt U ⟨pre, (t!"<li>" ++ X ++ t!"</li>") ++ Z⟩ =
      some (⟨(t!"<li>" ++ X ++ t!"</li>").reverse ++ pre, Z⟩, [(2, X), (1, [])]) := by
  apply Heads.matchAt
  rw [TAG_LI_shape]
  have hlit : ∀ p s, Heads U (Re.lit t!"</li>") p t!"</li>" Z s s := by
    intro p s
    exact ⟨[], by rw [Re.lit_all, if_pos (by simp)]; simp⟩
  have hno : ∀ u v p s, u ≠ [] → t!"</li>" ++ Z = u ++ v → (Re.lit t!"</li>").all U ⟨p, v⟩ s = [] := by
    intro u v p s hu e
    rw [Re.lit_all, if_neg]
    intro hp
    obtain ⟨w, rfl⟩ := List.isPrefixOf_iff_prefix.1 hp
    match u, hu with
    | [a], _ => simp at e
    | [a, b], _ => simp at e
    | [a, b, c], _ => simp at e
    | [a, b, c, d], _ => simp at e
    | a :: b :: c :: d :: f :: u, _ =>
      simp at e
      apply hZ
      rw [e.2.2.2.2.2]; simp
  have h6 : Heads U (.seq (.grp 2 (.star true (.set true []))) (Re.lit t!"</li>")) (['>'] ++ (t!"il<" ++ pre)) (X ++ t!"</li>") Z
      [(1, [])] [(2, X), (1, [])] := Heads.last (hlit _ _) hno
  have h45 : Heads U (.seq (.grp 1 (.star false (.set true [.chr '>']))) (.seq (.set false [.chr '>'])
      (.seq (.grp 2 (.star true (.set true []))) (Re.lit t!"</li>")))) (t!"il<" ++ pre) ([] ++ ([ '>'] ++ (X ++ t!"</li>"))) Z
      [] [(2, X), (1, [])] := by
    refine Heads.seq (s1 := [(1, [])]) (Heads.grp (s' := []) ?_) (Heads.seq .chr (by simpa using h6))
    refine ⟨[], ?_⟩
    rw [List.nil_append, List.append_assoc, List.singleton_append, all_star_cons]
    simp [evalSet, Item.eval_chr]
  have h := Heads.seq (U := U) (pre := pre) (s := []) (u := ['<']) (rest := Z) .chr
    (Heads.seq (u := ['l']) .chr (Heads.seq (u := ['i']) .chr (by simpa using h45)))
  simpa using h

/-! ## Breaks in items -/

/-- Every newline is followed by a tab. -/
def Tabbed (t : Str) : Prop := ∀ a b, t = a ++ '\n' :: b → b.head? = some '\t'

theorem Tabbed.of_nonl {t : Str} (h : '\n' ∉ t) : Tabbed t := by
  rintro a b rfl
  exact absurd (by simp) h

theorem Tabbed.append {s t : Str} (hs : Tabbed s) (ht : Tabbed t) : Tabbed (s ++ t) := by
  intro a b e
  rcases List.append_eq_append_iff.1 e with ⟨u, rfl, e2⟩ | ⟨u, rfl, e2⟩
  · exact ht u b e2
  · cases u with
    | nil => exact ht [] b (by simpa using e2.symm)
    | cons x u =>
      simp only [List.cons_append, List.cons.injEq] at e2
      obtain ⟨rfl, rfl⟩ := e2
      have := hs a u rfl
      cases u with
      | nil => simp at this
      | cons y u => simpa using this

theorem Tabbed.line {t : Str} (ht : Tabbed t) (n : Nat) : Tabbed (t!"\n" ++ Spec.tabs (n + 1) ++ t) := by
  have h : ∀ n, Tabbed (Spec.tabs n) := fun n => .of_nonl (by simp [Spec.tabs])
  refine Tabbed.append ?_ ht
  intro a b e
  cases a with
  | nil => simp [Spec.tabs, List.replicate_succ] at e; subst e; rfl
  | cons x a => simp at e; exact h _ a b e.2

theorem withBreaks_tabbed {br : Str} : ∀ {t before : Str}, Tabbed t → Spec.withBreaks br before t = t
  | [], _, _ => rfl
  | c :: t, before, h => by
    have ht : Tabbed t := fun a b e => h (c :: a) b (by rw [e]; rfl)
    rw [Spec.withBreaks, withBreaks_tabbed ht]
    rw [if_neg]; · rfl
    rintro ⟨rfl, hb, -⟩
    have := h [] t rfl
    have := (hb _ this).1
    revert this; decide

/-- Texts over some characters are converted to lower case one character at a time. -/
def Lowers (U : Uni) (ok : Char → Prop) : Prop :=
  ∃ low : Char → Char, ∀ t : Str, (∀ c ∈ t, ok c) → U.toLower t = t.map low ∧ ∀ c ∈ t, LowerOk low c

theorem insertBrs_tabbed {U : Uni} {ok : Char → Prop} (hU : Lowers U ok) {t br : Str} (ht : Tabbed t) (hok : ∀ c ∈ t, ok c) :
    insertBrs U t br = .ok t := by
  obtain ⟨low, hl⟩ := hU
  obtain ⟨h1, h2⟩ := hl t hok
  rcases C45_line_breaks_partial U low t br h1 h2 with h | ⟨-, u, v, e, -, hb⟩
  · rw [h, withBreaks_tabbed ht]
  · exact absurd (hb _ (ht u v e)).1 (by decide)

/-! ## The shape of the HTML -/

theorem min_le_lastDepth : ∀ {t : Spec.Items} {d acc : Nat}, min d acc ≤ t.lastDepth d acc
  | .done, _, _ => Nat.min_le_right ..
  | .item _ _ sub next, d, acc => by
    rw [Spec.Items.lastDepth]
    have h1 := min_le_lastDepth (t := next) (d := d) (acc := sub.lastDepth (d + 1) d)
    have h2 := min_le_lastDepth (t := sub) (d := d + 1) (acc := d)
    omega

/-- Properties of the texts of a list. -/
def AllTexts (P : Str → Prop) : Spec.Items → Prop
  | .done => True
  | .item t _ sub next => P t ∧ AllTexts P sub ∧ AllTexts P next

theorem AllTexts.mono {P Q : Str → Prop} (h : ∀ t, P t → Q t) : ∀ {t : Spec.Items}, AllTexts P t → AllTexts Q t
  | .done, _ => trivial
  | .item _ _ _ _, ht => ⟨h _ ht.1, ht.2.1.mono h, ht.2.2.mono h⟩

/-- Characters of the tags of a list. -/
def tagChars : Str := t!"<>/\n\t =\"ulostar0123456789"

theorem attr_chars {k : Spec.ListKind} {n : Nat} : ∀ c ∈ k.attr n, c ∈ tagChars := by
  have hn : ∀ c ∈ Spec.numeral n, c ∈ tagChars := by
    intro c hc
    rw [natStr_numeral] at hc
    have := natStr_digits n c hc
    have h : 48 ≤ c.toNat ∧ c.toNat ≤ 57 := by simpa [isDigitC] using this
    have e : c = Char.ofNat c.toNat := by simp
    have : ∀ k, 48 ≤ k → k ≤ 57 → Char.ofNat k ∈ tagChars := by
      intro k h1 h2
      have : k = 48 ∨ k = 49 ∨ k = 50 ∨ k = 51 ∨ k = 52 ∨ k = 53 ∨ k = 54 ∨ k = 55 ∨ k = 56 ∨ k = 57 := by omega
      rcases this with rfl | rfl | rfl | rfl | rfl | rfl | rfl | rfl | rfl | rfl <;> decide
    rw [e]; exact this _ h.1 h.2
  intro c hc
  cases k with
  | bullets => cases hc
  | numbers => cases hc
  | numbersFrom m =>
    simp only [Spec.ListKind.attr, List.mem_append] at hc
    rcases hc with (hc | hc) | hc
    · revert c; decide
    · exact hn c hc
    · revert c; decide
  | numbersOn =>
    simp only [Spec.ListKind.attr, List.mem_append] at hc
    rcases hc with (hc | hc) | hc
    · revert c; decide
    · exact hn c hc
    · revert c; decide

theorem name_chars {k : Spec.ListKind} : ∀ c ∈ k.name, c ∈ t!"ulo" := by
  unfold Spec.ListKind.name
  split <;> decide

theorem attr_nonl {k : Spec.ListKind} {n : Nat} : '\n' ∉ k.attr n := by
  cases k with
  | bullets => simp [Spec.ListKind.attr]
  | numbers => simp [Spec.ListKind.attr]
  | numbersFrom m =>
    have : '\n' ∉ Spec.numeral n := by
      rw [natStr_numeral]; intro h; have := natStr_digits n _ h; revert this; decide
    simp [Spec.ListKind.attr, this]
  | numbersOn =>
    have : '\n' ∉ Spec.numeral n := by
      rw [natStr_numeral]; intro h; have := natStr_digits n _ h; revert this; decide
    simp [Spec.ListKind.attr, this]

theorem attr_nolt {k : Spec.ListKind} {n : Nat} : '<' ∉ k.attr n := by
  cases k with
  | bullets => simp [Spec.ListKind.attr]
  | numbers => simp [Spec.ListKind.attr]
  | numbersFrom m =>
    have : '<' ∉ Spec.numeral n := by
      rw [natStr_numeral]; intro h; have := natStr_digits n _ h; revert this; decide
    simp [Spec.ListKind.attr, this]
  | numbersOn =>
    have : '<' ∉ Spec.numeral n := by
      rw [natStr_numeral]; intro h; have := natStr_digits n _ h; revert this; decide
    simp [Spec.ListKind.attr, this]

theorem name_nonl {k : Spec.ListKind} : '\n' ∉ k.name := fun h => absurd (name_chars _ h) (by decide)

theorem around_tabbed {k : Spec.ListKind} {d n last : Nat} {inside : Str} (h : Tabbed inside) (hl : 1 < last) (hd : 1 < d) :
    Tabbed (t!"\n" ++ k.around d n last inside) := by
  have e1 : d - 1 = (d - 2) + 1 := by omega
  have e2 : last - 1 = (last - 2) + 1 := by omega
  have h1 : Tabbed (t!"<" ++ k.name ++ k.attr n ++ t!">") := .of_nonl (by simp [name_nonl, attr_nonl])
  have h2 : Tabbed (t!"</" ++ k.name ++ t!">") := .of_nonl (by simp [name_nonl])
  have := (Tabbed.append h1 (h.append (h2.line (last - 2)))).line (d - 2)
  unfold Spec.ListKind.around
  rw [e1, e2]
  simpa using this

/-- HTML of items: every newline in it is followed by a tab. -/
theorem html_tabbed : ∀ {t : Spec.Items} {o : Bool} {m : Str} {N : Spec.Numbers}, m ≠ [] → AllTexts (fun t => '\n' ∉ t) t →
    Tabbed (t.html o m N).1
  | .done, _, _, _, _, _ => .of_nonl (by simp [Spec.Items.html])
  | .item t k sub next, o, m, N, hm, ht => by
    have hpos : 0 < m.length := List.length_pos_iff.2 hm
    have e : m.length = (m.length - 1) + 1 := by omega
    rw [Spec.Items.html]
    simp only
    have hn := html_tabbed (t := next) (o := o) (m := m) (N := (sub.html k.ordered (m ++ [k.mark])
      (if sub.isDone then (if o then N.set m (N m + 1) else N) else k.start (m ++ [k.mark]) (if o then N.set m (N m + 1) else N))).2) hm ht.2.2
    refine Tabbed.append ?_ hn
    have hs := html_tabbed (t := sub) (o := k.ordered) (m := m ++ [k.mark]) (N := (if sub.isDone then (if o then N.set m (N m + 1) else N)
      else k.start (m ++ [k.mark]) (if o then N.set m (N m + 1) else N))) (by simp) ht.2.1
    refine Tabbed.append (Tabbed.append ?_ ?_) (.of_nonl (by simp))
    · rw [e]
      have := (Tabbed.of_nonl (t := t!"<li>" ++ t) (by simp [ht.1])).line (m.length - 1)
      simpa using this
    · split
      · exact .of_nonl (by simp)
      · next h =>
        rw [if_neg h] at hs
        refine around_tabbed hs ?_ (by omega)
        have := min_le_lastDepth (t := sub) (d := m.length + 1) (acc := m.length + 1)
        omega

theorem around_chars {ok : Char → Prop} (hok : ∀ c ∈ tagChars, ok c) {k : Spec.ListKind} {d n last : Nat} {inside : Str} (h : ∀ c ∈ inside, ok c) :
    ∀ c ∈ k.around d n last inside, ok c := by
  intro c hc
  have htabs : ∀ n, c ∈ Spec.tabs n → ok c := by
    intro n h
    have : c = '\t' := by simp [Spec.tabs] at h; exact h.2
    subst this; exact hok _ (by decide)
  unfold Spec.ListKind.around at hc
  simp only [List.mem_append] at hc
  have hlit : ∀ w : Str, (∀ c ∈ w, c ∈ tagChars) → c ∈ w → ok c := fun w hw h => hok c (hw c h)
  have hname : c ∈ k.name → ok c := fun h => hok c ((by decide : ∀ c ∈ t!"ulo", c ∈ tagChars) c (name_chars c h))
  rcases hc with (((((((((hc | hc) | hc) | hc) | hc) | hc) | hc) | hc) | hc) | hc) | hc
  · exact htabs _ hc
  · exact hlit t!"<" (by decide) hc
  · exact hname hc
  · exact hok _ (attr_chars _ hc)
  · exact hlit t!">" (by decide) hc
  · exact h c hc
  · exact hlit t!"\n" (by decide) hc
  · exact htabs _ hc
  · exact hlit t!"</" (by decide) hc
  · exact hname hc
  · exact hlit t!">" (by decide) hc

/-- Characters of the HTML of items. -/
theorem html_chars {ok : Char → Prop} (hok : ∀ c ∈ tagChars, ok c) (hi : ok 'i') : ∀ {t : Spec.Items} {o : Bool} {m : Str} {N : Spec.Numbers},
    AllTexts (fun t => ∀ c ∈ t, ok c) t → ∀ c ∈ (t.html o m N).1, ok c
  | .done, _, _, _, _ => by simp [Spec.Items.html]
  | .item t k sub next, o, m, N, ht => by
    rw [Spec.Items.html]
    simp only
    intro c hc
    have hl : ∀ c ∈ t!"</li>", ok c := by
      intro c hc
      have : c ∈ tagChars ∨ c = 'i' := by revert c; decide
      rcases this with h | rfl
      · exact hok c h
      · exact hi
    simp only [List.mem_append] at hc
    rcases hc with (((((hc | hc) | hc) | hc) | hc) | hc) | hc
    · exact hok _ (by revert c; decide)
    · have : c = '\t' := by simp [Spec.tabs] at hc; exact hc.2
      subst this; exact hok _ (by decide)
    · exact hl c (by revert c; decide)
    · exact ht.1 c hc
    · split at hc
      · cases hc
      · rcases List.mem_append.1 hc with hc | hc
        · exact hok _ ((by decide : ∀ c ∈ t!"\n", c ∈ tagChars) c hc)
        · exact around_chars hok (html_chars hok hi ht.2.1) c hc
    · exact hl c hc
    · exact html_chars hok hi ht.2.2 c hc

/-- Items begin with a tag and end with one. -/
theorem html_shape {o : Bool} {m : Str} : ∀ {t : Spec.Items} {N : Spec.Numbers}, t ≠ .done →
    ∃ X, (t.html o m N).1 = t!"\n" ++ Spec.tabs m.length ++ (t!"<li>" ++ X ++ t!"</li>")
  | .done, _, h => absurd rfl h
  | .item t k sub next, N, _ => by
    rw [Spec.Items.html]
    simp only
    by_cases hn : next = .done
    · subst hn
      exact ⟨_, by simp only [Spec.Items.html, List.append_assoc, List.append_nil]; rw [← List.append_assoc t]⟩
    · obtain ⟨X, hX⟩ := html_shape (o := o) (m := m) (t := next) (N := (sub.html k.ordered (m ++ [k.mark])
        (if sub.isDone then (if o then N.set m (N m + 1) else N) else k.start (m ++ [k.mark]) (if o then N.set m (N m + 1) else N))).2) hn
      rw [hX]
      exact ⟨t ++ ((if sub.isDone then [] else
          ['\n'] ++ k.around (m.length + 1) ((if sub.isDone then (if o then N.set m (N m + 1) else N) else k.start (m ++ [k.mark]) (if o then N.set m (N m + 1) else N)) (m ++ [k.mark])) (sub.lastDepth (m.length + 1) (m.length + 1)) (sub.html k.ordered (m ++ [k.mark]) (if sub.isDone then (if o then N.set m (N m + 1) else N) else k.start (m ++ [k.mark]) (if o then N.set m (N m + 1) else N))).1)
        ++ (t!"</li>" ++ (t!"\n" ++ Spec.tabs m.length ++ (t!"<li>" ++ X)))), by simp only [List.append_assoc]⟩

/-! ## The whole list -/

theorem li_nonnull : TAG_LI_RE.nonnull = true := by decide

/-- Breaks are looked for in the items of a list; there is no place for one. -/
theorem runs_tagBr {C : Ctx} {ok : Char → Prop} (hU : Lowers C.U ok) {k : Spec.ListKind} {n last : Nat} {X : Str} {d : Nat}
    (hX : Tabbed X) (hok : ∀ c ∈ X, ok c) (σ : PState) :
    Runs C (doTagBr C t!"li" (k.around 1 n last (t!"\n" ++ Spec.tabs d ++ (t!"<li>" ++ X ++ t!"</li>"))))
      (k.around 1 n last (t!"\n" ++ Spec.tabs d ++ (t!"<li>" ++ X ++ t!"</li>"))) σ σ := by
  unfold doTagBr
  refine Runs.bind (runs_getPat (.tagBr t!"li") σ) ?_
  have e : mkPat C.cfg.uid (.tagBr t!"li") = TAG_LI_RE := by simp [mkPat]
  rw [e]
  refine ScanP.runs li_nonnull (fun m => rfl) ?_
  have hname : ∃ x, k.name = [x, 'l'] ∧ x ≠ 'l' ∧ x ≠ '<' := by
    unfold Spec.ListKind.name
    split
    · exact ⟨'o', rfl, by decide, by decide⟩
    · exact ⟨'u', rfl, by decide, by decide⟩
  obtain ⟨x, hx, hxl, hxlt⟩ := hname
  have e2 : k.around 1 n last (t!"\n" ++ Spec.tabs d ++ (t!"<li>" ++ X ++ t!"</li>")) =
      ('<' :: (x :: ('l' :: (k.attr n ++ t!">\n" ++ Spec.tabs d)))) ++ ((t!"<li>" ++ X ++ t!"</li>") ++
        (t!"\n" ++ Spec.tabs (last - 1) ++ t!"</" ++ k.name ++ t!">")) := by
    unfold Spec.ListKind.around
    simp [Spec.tabs, hx]
  rw [e2]
  have hZ : 'i' ∉ t!"\n" ++ Spec.tabs (last - 1) ++ t!"</" ++ k.name ++ t!">" := by
    have : 'i' ∉ k.name := fun h => absurd (name_chars _ h) (by decide)
    simp [Spec.tabs, this]
  refine ScanP.of_skips ?_ (ScanP.hit (σ1 := σ) (LI_match hZ) (by simp) ?_ ?_)
  · intro u y v e
    apply LI_none
    cases u with
    | nil =>
      simp only [List.nil_append, List.cons.injEq] at e
      right
      rw [← e.2]; simpa using hxl
    | cons z u =>
      left
      simp only [List.cons_append, List.cons.injEq] at e
      have : y ∈ x :: ('l' :: (k.attr n ++ t!">\n" ++ Spec.tabs d)) := by rw [e.2]; simp
      rintro rfl
      simp [attr_nolt, Spec.tabs] at this
      exact hxlt this.symm
  · intro gap
    rw [show (⟨gap, t!"<li>" ++ X ++ t!"</li>", [(2, X), (1, [])]⟩ : Mat).grp 2 = X from rfl,
      show (⟨gap, t!"<li>" ++ X ++ t!"</li>", [(2, X), (1, [])]⟩ : Mat).grp 1 = [] from rfl, insertBrs_tabbed hU hX hok]
    have := Runs.pure (C := C) (t!"<" ++ t!"li" ++ [] ++ t!">" ++ X ++ t!"</" ++ t!"li" ++ t!">") σ
    exact Runs.bind (a := X) (by intro w hw e; exact ⟨w, rfl, e, hw⟩) (by simpa using this)
  · generalize hzz : t!"\n" ++ Spec.tabs (last - 1) ++ t!"</" ++ k.name ++ t!">" = Z at hZ
    generalize (t!"<li>" ++ X ++ t!"</li>").reverse ++ _ = pre
    have : Skips C.U TAG_LI_RE pre Z [] := by
      intro u y v e
      rw [List.append_nil]
      cases hm : TAG_LI_RE.matchAt C.U ⟨u.reverse ++ pre, y :: v⟩ with
      | none => rfl
      | some q =>
        exfalso
        rw [Re.matchAt_eq] at hm
        have hm := List.mem_of_head? hm
        rw [TAG_LI_shape] at hm
        obtain ⟨w, rest, e1, -, hm⟩ := Takes.of_mem hm
        obtain ⟨a, b, s1, rfl, ha, hb⟩ := hm.seq
        obtain ⟨a2, b2, s2, rfl, ha2, hb2⟩ := hb.seq
        obtain ⟨a3, b3, s3, rfl, ha3, hb3⟩ := hb2.seq
        have := ha3.chr.1
        subst this
        apply hZ
        rw [e, e1]; simp
    simpa using ScanP.of_skips this (ScanP.nil (σ := σ))

theorem joinWith_lines : ∀ {ls : List Str}, ls ≠ [] → t!"\n" ++ joinWith t!"\n" ls = linesText ls
  | [], h => absurd rfl h
  | [l], _ => by simp [joinWith, linesText]
  | l :: m :: ls, _ => by
    have := joinWith_lines (ls := m :: ls) (by simp)
    rw [joinWith, linesText, List.flatMap_cons, ← linesText, ← this]
    simp

theorem getLast_extend {z : Str} : ∀ {is : List ListItem}, (∀ i ∈ is, ItemOk i) → is ≠ [] →
    ∃ i, (extendItem z is).getLast? = some i ∧ Marker i.tl := by
  intro is h hne
  have hne' : extendItem z is ≠ [] := by
    cases is with
    | nil => exact absurd rfl hne
    | cons i is => cases is <;> simp [extendItem]
  refine ⟨_, List.getLast?_eq_some_getLast hne', (extend_ok h _ (List.getLast_mem hne')).tl⟩

/-- What is asked of the texts of a list. -/
structure TextFine (ok : Char → Prop) (t : Str) : Prop where
  trim : trim t = t
  ne : t ≠ []
  nonl : '\n' ∉ t
  chars : ∀ c ∈ t, ok c

def Fine (ok : Char → Prop) : Spec.Items → Prop
  | .done => True
  | .item t k sub next => TextFine ok t ∧ k.Ok ∧ Fine ok sub ∧ Fine ok next

theorem Fine.texts {ok : Char → Prop} : ∀ {t : Spec.Items}, Fine ok t → Texts t
  | .done, _ => trivial
  | .item _ _ _ _, h => ⟨⟨h.1.trim, h.1.ne⟩, h.2.1, h.2.2.1.texts, h.2.2.2.texts⟩

theorem Fine.all {ok : Char → Prop} {P : Str → Prop} (hP : ∀ t, TextFine ok t → P t) : ∀ {t : Spec.Items}, Fine ok t → AllTexts P t
  | .done, _ => trivial
  | .item _ _ _ _, h => ⟨hP _ h.1, h.2.2.1.all hP, h.2.2.2.all hP⟩

theorem mark_marker (k : Spec.ListKind) : Marker [k.mark] := by
  refine ⟨by simp, fun c hc => ?_⟩
  simp at hc; subst hc
  unfold Spec.ListKind.mark
  split <;> simp

theorem lines_ok {ok : Char → Prop} : ∀ {t : Spec.Items} {m s : Str}, Fine ok t → Marker m → Suffix s →
    ∀ l ∈ t.lines m s, ListLine l := by
  intro t m s ht hm hs l hl
  have hsn : ∀ {s}, Suffix s → '\n' ∉ s := by
    rintro s (rfl | rfl | ⟨-, h⟩)
    · simp
    · simp
    · intro hn; have := h _ hn; revert this; decide
  refine ⟨?_, ?_⟩
  · induction t generalizing m s with
    | done => cases hl
    | item t k sub next ihs ihn =>
      rw [Spec.Items.lines] at hl
      rcases List.mem_cons.1 hl with rfl | hl
      · simp [hm.notin (d := '\n') (by decide) (by decide), hsn hs, ht.1.nonl]
      · rcases List.mem_append.1 hl with hl | hl
        · exact ihs ht.2.2.1 (hm.snoc k) (suffix_ok k) hl
        · exact ihn ht.2.2.2 hm (.inl rfl) hl
  · rw [lines_flat] at hl
    obtain ⟨i, hi, rfl⟩ := List.mem_map.1 hl
    have hi := (flat_ok hm hs i hi).tl
    obtain ⟨x, xs, e⟩ := List.exists_cons_of_ne_nil hi.ne
    exact ⟨x, xs ++ (i.st ++ ' ' :: i.content), by rw [itemText, e]; rfl, hi.chars x (by rw [e]; simp)⟩

/-- **A list as the parser renders it.** -/
theorem runs_list {C : Ctx} (hU : UniOk C.U) {ok : Char → Prop} (hL : Lowers C.U ok) (hok : ∀ c ∈ tagChars, ok c) (hi : ok 'i')
    {k : Spec.ListKind} {t : Spec.Items} (hk : k.Ok) (hne : t ≠ .done) (ht : Fine ok t) {σ : PState} {N : Spec.Numbers} (hN : Num N σ)
    {m : Mat} (hm : m.whole = Spec.listSource k t ++ t!"\n\n") :
    ∃ σ', Runs C (fTextileList C m) (Spec.listHtml k t N) σ σ' ∧ Renum σ σ' ∧ Num (Spec.listNumbers k t N) σ' := by
  have hls := lines_ok ht (mark_marker k) (suffix_ok k)
  have hfl : flat [k.mark] k.suffix t ≠ [] := by
    cases t with
    | done => exact absurd rfl hne
    | item _ _ _ _ => simp [flat]
  have hlne : t.lines [k.mark] k.suffix ≠ [] := by
    rw [lines_flat]; simpa using hfl
  have hitems : listItems C.U [] (LISTS_SPLIT_RE.split C.U 0 m.whole) = extendItem t!"\n\n" (flat [k.mark] k.suffix t) := by
    rw [hm, Spec.listSource, split_list C.U hlne hls, lines_flat, extend_map, listItems_eq hU (extend_ok (flat_ok (mark_marker k) (suffix_ok k)))]
    rfl
  obtain ⟨last, hlast, hlm⟩ := getLast_extend (z := t!"\n\n") (flat_ok (mark_marker k) (suffix_ok k)) hfl
  have hkey := listLoop_key C (extendItem t!"\n\n" (flat [k.mark] k.suffix t)) (flat [k.mark] k.suffix t) none none []
    (extend_key (by decide) _) rfl
  obtain ⟨ls, p, σ', hp, hren, hnum, hrun, htext⟩ := loop_items C t hne ht.texts (mark_marker k) (k := k) (by simp) true none [] [] σ N hN rfl
    (fun _ => hk) (by intro q hq; cases hq) (by simp) (by intro i hi; cases hi)
  have hloop : Runs C (listLoop C none [] (extendItem t!"\n\n" (flat [k.mark] k.suffix t))) ls σ σ' := by
    rw [hkey]
    have := hrun [] σ' (by
      conv => arg 2; unfold listLoop
      exact Runs.pure _ _)
    simpa using this
  simp only [if_true, List.head?_nil] at htext hnum
  rw [closing_snoc (e := 0) (by intro i hi; cases hi) (by simp), listType_kind (mark_marker k) (k := k) (by simp)] at htext
  have hc : ∀ d, closing C.U d none [] = [] := fun d => rfl
  rw [hc] at htext
  have hls' : ls ≠ [] := by
    rintro rfl
    simp [linesText] at htext
  have hout : joinWith t!"\n" ls = Spec.listHtml k t N := by
    have := joinWith_lines hls'
    rw [htext] at this
    have e : t!"\n" ++ joinWith t!"\n" ls = t!"\n" ++ Spec.listHtml k t N := by
      rw [this]
      simp [Spec.listHtml, Spec.ListKind.around, openList, Spec.tabs]
    exact List.append_cancel_left e
  refine ⟨σ', ?_, hren, hnum⟩
  unfold fTextileList
  rw [hitems]
  obtain ⟨first, rest, hfr⟩ : ∃ first rest, extendItem t!"\n\n" (flat [k.mark] k.suffix t) = first :: rest ∧ first.level = 1 := by
    cases t with
    | done => exact absurd rfl hne
    | item a b sub next =>
      rw [flat]
      cases hx : flat ([k.mark] ++ [b.mark]) b.suffix sub ++ flat [k.mark] [] next with
      | nil => exact ⟨_, _, rfl, rfl⟩
      | cons y ys => exact ⟨_, _, rfl, rfl⟩
  obtain ⟨hfr, hlev⟩ := hfr
  have hloop' := hloop
  rw [hfr] at hloop' hlast ⊢
  simp only
  rw [if_neg (by omega)]
  refine Runs.bind hloop' ?_
  rw [hlast]
  simp only
  rw [itemTag_marker hlm, hout, Spec.listHtml]
  obtain ⟨X, hX⟩ := html_shape (o := k.ordered) (m := [k.mark]) (N := k.start [k.mark] N) hne
  have htab := html_tabbed (t := t) (o := k.ordered) (m := [k.mark]) (N := k.start [k.mark] N) (by simp) (ht.all (fun _ h => h.nonl))
  have hch := html_chars hok hi (t := t) (o := k.ordered) (m := [k.mark]) (N := k.start [k.mark] N) (ht.all (fun _ h => h.chars))
  rw [hX] at htab hch ⊢
  refine runs_tagBr hL ?_ ?_ σ'
  · intro a b e
    have := htab (t!"\n" ++ Spec.tabs 1 ++ (t!"<li>" ++ a)) (b ++ t!"</li>") (by rw [e]; simp)
    cases b with
    | nil => simp at this
    | cons c b => simpa using this
  · intro c hc
    exact hch c (by simp [hc])

theorem lists_nonnull : LISTS_RE.nonnull = true := by decide

/-- `textile_lists` on a paragraph that is a list. -/
theorem runs_lists {C : Ctx} (hU : UniOk C.U) {ok : Char → Prop} (hL : Lowers C.U ok) (hok : ∀ c ∈ tagChars, ok c) (hi : ok 'i')
    {k : Spec.ListKind} {t : Spec.Items} (hk : k.Ok) (hne : t ≠ .done) (ht : Fine ok t) {σ : PState} {N : Spec.Numbers} (hN : Num N σ) :
    ∃ σ', Runs C (textileLists C (Spec.listSource k t ++ t!"\n\n")) (Spec.listHtml k t N) σ σ' ∧ Renum σ σ' ∧
      Num (Spec.listNumbers k t N) σ' := by
  obtain ⟨σ', h1, h2, h3⟩ := runs_list hU hL hok hi hk hne ht hN (m := ⟨[], Spec.listSource k t ++ t!"\n\n", []⟩) rfl
  refine ⟨σ', ?_, h2, h3⟩
  unfold textileLists
  refine ScanP.runs lists_nonnull (fun m => rfl) ?_
  obtain ⟨rest, hrest⟩ : ∃ rest, Spec.listSource k t ++ t!"\n\n" = k.mark :: (k.suffix ++ ' ' :: rest) := by
    cases t with
    | done => exact absurd rfl hne
    | item a b sub next =>
      unfold Spec.listSource
      rw [Spec.Items.lines]
      cases hx : sub.lines ([k.mark] ++ [b.mark]) b.suffix ++ next.lines [k.mark] [] with
      | nil => exact ⟨_, by simp [Spec.join]; rfl⟩
      | cons y ys => exact ⟨_, by rw [join_cons (by simp)]; simp; rfl⟩
  obtain ⟨s, hs⟩ := LISTS_match hU k (suffix_ok k) (by intro h; cases k <;> simp [Spec.ListKind.ordered] at h; rfl) rest
  rw [← hrest] at hs
  have := ScanP.hit (C := C) (r := LISTS_RE) (f := fTextileList C) (pre := []) (w := Spec.listSource k t ++ t!"\n\n") (rest := []) (s := s)
    (o := Spec.listHtml k t N) (σ := σ) (σ1 := σ') (by simpa using hs) (by simp)
    (fun gap => (runs_list hU hL hok hi hk hne ht hN (m := ⟨gap, _, s⟩) rfl).choose_spec.1 |> fun _ => h1) ScanP.nil
  simpa using this

end Rustextile
