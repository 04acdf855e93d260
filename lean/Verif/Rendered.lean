import Verif.Paragraph
import Verif.Props.State

/-!
# What becomes of single blocks
-/

namespace Rustextile

open Prog

/-! ## Runs -/

/-- From the state `σ` the program runs to the result `a` and the state `σ'`. -/
def Runs (C : Ctx) {α : Type} (p : Prog α) (a : α) (σ σ' : PState) : Prop :=
  ∀ w, Cache.Valid C.cfg.uid w.cache → w.st = σ →
    ∃ w', run C p w = .ok (a, w') ∧ w'.st = σ' ∧ Cache.Valid C.cfg.uid w'.cache

theorem Runs.pure {C : Ctx} {α : Type} (a : α) (σ : PState) : Runs C (Pure.pure a) a σ σ :=
  fun w h e => ⟨w, rfl, e, h⟩

theorem Runs.bind {C : Ctx} {α β : Type} {p : Prog α} {f : α → Prog β} {a : α} {b : β} {σ σ' σ'' : PState}
    (h : Runs C p a σ σ') (h' : Runs C (f a) b σ' σ'') : Runs C (p >>= f) b σ σ'' := by
  intro w hw e
  obtain ⟨w1, e1, s1, v1⟩ := h w hw e
  obtain ⟨w2, e2, s2, v2⟩ := h' w1 v1 s1
  exact ⟨w2, by rw [run_bind_ok e1, e2], s2, v2⟩

theorem Leaves.runs {C : Ctx} {p : Prog Str} {t : Str} (h : Leaves C p t) (σ : PState) : Runs C p t σ σ := by
  intro w hw e
  obtain ⟨w', h1, h2, h3⟩ := h w hw
  exact ⟨w', h1, by rw [h2, e], h3⟩

/-- The state after a text has been set aside. -/
def PState.shelved (uid : Str) (v : Str) (σ : PState) : PState :=
  { σ with refIndex := σ.refIndex + 1, shelf := imInsert (shelfKey uid (σ.refIndex + 1)) v σ.shelf }

theorem Runs.shelve {C : Ctx} (v : Str) (kd : ShelfKind) (σ : PState) :
    Runs C (shelveP v kd) (shelfKey C.cfg.uid (σ.refIndex + 1)) σ (σ.shelved C.cfg.uid v) := by
  intro w hw e
  subst e
  exact ⟨(w.shelve C.cfg.uid v).2, rfl, rfl, hw⟩

/-! ## Placeholders -/

/-- The alphabet of placeholders. -/
def tokA : Alpha := ⟨asciiAlnum ++ t!":\n", false⟩

theorem tokA_wf : tokA.wf = true := by decide
theorem early_tok : earlyPatterns.all (·.need tokA) = true := by decide +kernel
theorem late_tok : latePatterns.all (·.need tokA) = true := by decide +kernel
theorem table_tok : TABLE_RE.need tokA = true := by decide +kernel
theorem glyph_tok : glyphPatterns.all (fun r => r.need tokA || r == DYN_3PLUS_RE || r == GL_DIM_RE) = true := by
  decide +kernel

theorem tokA_nl : tokA.Mem '\n' := .inl (by decide)

theorem tokA_not {c : Char} (h : tokA.Mem c) : c ∉ t!"])'\"<> " := by
  rcases h with h | h
  · have : ∀ c ∈ asciiAlnum ++ t!":\n", c ∉ t!"])'\"<> " := by decide
    exact this c h
  · exact absurd h.1 (by decide)

/-- The token belonging to a base. -/
def uidOf (base : Str) : Str := t!"textileRef:" ++ base ++ t!":"

theorem shelfKey_join (base : Str) (n : Nat) :
    shelfKey (uidOf base) n = Spec.join t!":" [t!"textileRef", base, natStr n, t!"shelve"] := by
  simp [shelfKey, uidOf, Spec.join]

theorem natStr_alnum {n : Nat} {c : Char} (h : c ∈ natStr n) : 48 ≤ c.toNat ∧ c.toNat ≤ 57 := by
  have := natStr_digits n c h
  simpa [isDigitC] using this

theorem key_chars {base : Str} (hb : Spec.PlainBase base) {n : Nat} {c : Char} (h : c ∈ shelfKey (uidOf base) n) :
    c ∈ asciiAlnum ∨ c = ':' := by
  rw [shelfKey_join] at h
  rcases mem_join h with h | ⟨l, hl, h'⟩
  · right; simpa using h
  · left
    simp only [List.mem_cons, List.not_mem_nil, or_false] at hl
    rcases hl with rfl | rfl | rfl | rfl
    · have : ∀ c ∈ (t!"textileRef" : Str), c ∈ asciiAlnum := by decide
      exact this c h'
    · exact mem_asciiAlnum (hb.chars c h')
    · exact mem_asciiAlnum (.inr (.inr (natStr_alnum h')))
    · have : ∀ c ∈ (t!"shelve" : Str), c ∈ asciiAlnum := by decide
      exact this c h'

theorem key_over {base : Str} (hb : Spec.PlainBase base) (n : Nat) : tokA.Over (shelfKey (uidOf base) n) := by
  intro c hc
  left
  rcases key_chars hb hc with h | rfl
  · simp [tokA, h]
  · decide

/-- `graf` finds nothing in a placeholder. -/
theorem quiet_key {U : Uni} (hU : UniOk U) {base : Str} (hb : Spec.PlainBase base) (n : Nat) :
    Quiet U (shelfKey (uidOf base) n) := by
  have hA := key_over hb n
  have hA2 : tokA.Over (shelfKey (uidOf base) n ++ t!"\n\n") := by
    rw [Alpha.Over.append]
    exact ⟨hA, by intro c hc; simp at hc; subst hc; exact tokA_nl⟩
  have cut : ∀ {w a b : Str}, w ≠ [] → ':' ∉ w → shelfKey (uidOf base) n = a ++ (w ++ b) →
      ∃ l ∈ [t!"textileRef", base, natStr n, t!"shelve"], ∃ a' b', l = a' ++ (w ++ b') := by
    intro w a b h1 h2 e
    rw [shelfKey_join] at e
    exact infix_join h1 h2 e
  constructor
  · intro r hr
    exact Re.need_search hU tokA_wf (List.all_eq_true.1 early_tok r hr) hA _
  · exact Re.need_search hU tokA_wf table_tok hA2 _
  · intro r hr
    have := List.all_eq_true.1 late_tok r hr
    exact ⟨Re.need_search hU tokA_wf this hA _, Re.need_search hU tokA_wf this hA2 _⟩
  · intro r hr
    have := List.all_eq_true.1 glyph_tok r hr
    simp only [Bool.or_eq_true, beq_iff_eq] at this
    rcases this with (h | rfl) | rfl
    · exact Re.need_search hU tokA_wf h hA _
    · refine caps_none ?_ _
      rintro a x y z b e ⟨hx, hy, hz⟩
      have up : ∀ c ∈ [x, y, z], U.isLu c = true → 65 ≤ c.toNat ∧ c.toNat ≤ 90 := by
        intro c hc h
        have hm : c ∈ shelfKey (uidOf base) n := by
          rw [e]; simp only [List.mem_cons, List.not_mem_nil, or_false] at hc
          simp only [List.mem_append, List.mem_cons]; grind
        have hlt : c.toNat < 128 := by
          have : ∀ c ∈ asciiAlnum ++ t!":", c.toNat < 128 := by decide
          refine this c ?_
          rcases key_chars hb hm with h | h <;> simp [h]
        rw [hU.upper c hlt] at h
        simpa [isUp] using h
      have h1 := up x (by simp) hx
      have h2 := up y (by simp) hy
      have h3 := up z (by simp) hz
      obtain ⟨l, hl, a', b', el⟩ := cut (w := [x, y, z]) (a := a) (b := b) (by simp)
        (by
          simp only [List.mem_cons, List.not_mem_nil, or_false]
          rintro (rfl | rfl | rfl)
          · revert h1; decide
          · revert h2; decide
          · revert h3; decide) (by simpa using e)
      simp only [List.mem_cons, List.not_mem_nil, or_false] at hl
      have small : ∀ c ∈ (t!"textileRefshelve" : Str), c ≠ 'R' → ¬ (65 ≤ c.toNat ∧ c.toNat ≤ 90) := by decide
      rcases hl with rfl | rfl | rfl | rfl
      · have hx' : x = 'R' := Classical.byContradiction fun hne =>
          small x (by
            have : x ∈ (t!"textileRef" : Str) := by rw [el]; simp
            simp only [List.mem_cons, List.not_mem_nil, or_false] at this ⊢
            grind) hne h1
        have hy' : y = 'R' := Classical.byContradiction fun hne =>
          small y (by
            have : y ∈ (t!"textileRef" : Str) := by rw [el]; simp
            simp only [List.mem_cons, List.not_mem_nil, or_false] at this ⊢
            grind) hne h2
        subst hx' hy'
        have := congrArg (List.count 'R') el
        simp [List.count_cons] at this
        omega
      · exact hb.caps a' x y z b' (by rw [el]; simp) ⟨h1, h2, h3⟩
      · have := natStr_alnum (n := n) (c := x) (by rw [el]; simp)
        omega
      · have : x ∈ (t!"shelve" : Str) := by rw [el]; simp
        have s : ∀ c ∈ (t!"shelve" : Str), ¬ (65 ≤ c.toNat ∧ c.toNat ≤ 90) := by decide
        exact s x this h1
    · refine dim_none (fun c hc => ?_) ?_ _
      · have := tokA_not (hA c hc)
        simp only [List.mem_cons, List.not_mem_nil, or_false] at this ⊢
        grind
      · intro a d x b hd hx
        have hd' : d ≠ ':' := by rintro rfl; revert hd; decide
        have hx' : x ≠ ':' := by rcases hx with rfl | rfl <;> decide
        constructor
        · intro e
          obtain ⟨l, hl, a', b', el⟩ := cut (w := [d, x]) (a := a) (b := b) (by simp)
            (by simp [hd'.symm, hx'.symm]) (by simpa using e)
          simp only [List.mem_cons, List.not_mem_nil, or_false] at hl
          rcases hl with rfl | rfl | rfl | rfl
          · have : d ∈ (t!"textileRef" : Str) := by rw [el]; simp
            have s : ∀ c ∈ (t!"textileRef" : Str), Spec.isDecimal c = false := by decide
            rw [s d this] at hd; cases hd
          · exact hb.dims a' d x b' hd hx (by rw [el]; simp)
          · have := natStr_alnum (n := n) (c := x) (by rw [el]; simp)
            rcases hx with rfl | rfl <;> revert this <;> decide
          · have : d ∈ (t!"shelve" : Str) := by rw [el]; simp
            have s : ∀ c ∈ (t!"shelve" : Str), Spec.isDecimal c = false := by decide
            rw [s d this] at hd; cases hd
        · intro e
          have := tokA_not (hA ' ' (by rw [e]; simp))
          exact this (by decide)
  · intro h; exact tokA_not (hA _ h) (by decide)
  · intro h; exact tokA_not (hA _ h) (by decide)
  · rintro c hc rfl
    have := List.mem_of_getLast? hc
    rcases key_chars hb this with h | h
    · revert h; decide
    · cases h

/-! ## Elements of the block parser -/

theorem parseAttrs_nil (C : Ctx) (e : Option Str) : parseAttrs C [] e = pure {} := by
  unfold parseAttrs
  rw [show BAttrs.parse C.U [] e C.cfg.restricted = .ok {} from rfl]
  rfl

theorem NOTEDEF_need : NOTEDEF_RE.need linesA = true := by decide
theorem DIVIDER_need : DIVIDER_RE.need linesA = true := by decide +kernel
theorem UNWRAPPABLE_need : UNWRAPPABLE_RE.need linesA = true := by decide +kernel
theorem WRAPPED_need : WRAPPED_RE.need linesA = true := by decide +kernel

theorem hasRawText_lines {U : Uni} (hU : UniOk U) {t : Str} (hA : linesA.Over t) : hasRawText U t = true := by
  unfold hasRawText
  rw [Re.isMatch_none (Re.need_search hU linesA_wf UNWRAPPABLE_need hA _),
    Re.isMatch_none (Re.need_search hU linesA_wf DIVIDER_need hA _),
    Re.captures_none (Re.need_search hU linesA_wf WRAPPED_need hA _)]
  rfl

/-- Ordinary text is left alone by `graf`. -/
theorem leaves_lines {C : Ctx} (hU : UniOk C.U) (hf : 0 < C.fuel) (hc : ':' ∈ C.cfg.uid) {ls : List Str}
    (hls : ∀ l ∈ ls, Spec.Line C.U.isLu l) (hne : ls ≠ []) :
    Leaves C (graf C C.fuel (Spec.join t!"\n" ls)) (Spec.join t!"\n" ls) := by
  obtain ⟨f, hf'⟩ : ∃ f, C.fuel = f + 1 := ⟨C.fuel - 1, by omega⟩
  rw [hf']
  refine Leaves.graf hf (quiet_lines hU hls hne) f ?_
  refine containsStr_false_of_mem (c := ':') (by simp [hc]) ?_
  intro h
  exact absurd (lines_over hls ':' h) (not_linesA (by decide) (by decide))

theorem cut_eq {x : Char} : ∀ {a c b d : Str}, a ++ x :: b = c ++ x :: d → x ∉ a → x ∉ c → a = c ∧ b = d
  | [], [], b, d, h, _, _ => by simpa using h
  | [], y :: c, b, d, h, _, hc => by simp at h hc; exact absurd h.1 hc.1
  | y :: a, [], b, d, h, ha, _ => by simp at h ha; exact absurd h.1.symm ha.1
  | y :: a, z :: c, b, d, h, ha, hc => by
    simp at h ha hc
    obtain ⟨rfl, h⟩ := h
    have := cut_eq h ha.2 hc.2
    exact ⟨by rw [this.1], this.2⟩

theorem mem_cut {x : Char} : ∀ {a : Str}, x ∈ a → ∃ b c, a = b ++ x :: c ∧ x ∉ b
  | y :: a, h => by
    by_cases e : y = x
    · exact ⟨[], a, by rw [e]; rfl, by simp⟩
    · obtain ⟨b, c, h1, h2⟩ := mem_cut (x := x) (a := a) (by simp at h; rcases h with h | h; exact absurd h.symm e; exact h)
      exact ⟨y :: b, c, by rw [h1]; rfl, by simp [h2, Ne.symm e]⟩

theorem base_no_colon {base : Str} (hb : Spec.PlainBase base) : ':' ∉ base := by
  intro h; have := hb.chars _ h; revert this; decide

theorem natStr_no_colon (n : Nat) : ':' ∉ natStr n := by
  intro h; have := natStr_alnum h; revert this; decide

/-- The token occurs in a placeholder at its beginning only. -/
theorem uid_in_key {base : Str} (hb : Spec.PlainBase base) {n : Nat} {a b : Str}
    (e : shelfKey (uidOf base) n = a ++ (uidOf base ++ b)) : a = [] ∧ b = natStr n ++ t!":shelve" := by
  have e1 : (t!"textileRef" : Str) ++ ':' :: (base ++ ':' :: (natStr n ++ ':' :: t!"shelve")) =
      (a ++ t!"textileRef") ++ ':' :: (base ++ ':' :: b) := by
    simpa [shelfKey, uidOf] using e
  have hbc := base_no_colon hb
  have hnc := natStr_no_colon n
  by_cases ha : ':' ∈ a
  · exfalso
    obtain ⟨a1, a2, rfl, h1⟩ := mem_cut ha
    have e2 : (t!"textileRef" : Str) ++ ':' :: (base ++ ':' :: (natStr n ++ ':' :: t!"shelve")) =
      a1 ++ ':' :: (a2 ++ t!"textileRef" ++ ':' :: (base ++ ':' :: b)) := by rw [e1]; simp
    obtain ⟨-, e3⟩ := cut_eq e2 (by decide) h1
    by_cases ha2 : ':' ∈ a2
    · have := congrArg (List.count ':') e3
      simp only [List.count_append, List.count_cons, List.count_eq_zero_of_not_mem hbc,
        List.count_eq_zero_of_not_mem hnc] at this
      have h0 : 0 < List.count ':' a2 := List.count_pos_iff.2 ha2
      simp at this
      omega
    · obtain ⟨e4, e5⟩ := cut_eq e3 hbc (by simp [ha2])
      obtain ⟨e6, -⟩ := cut_eq e5 hnc hbc
      have : 't' ∈ natStr n := by rw [e6, e4]; simp
      have := natStr_alnum this
      revert this; decide
  · obtain ⟨e2, e3⟩ := cut_eq e1 (by decide) (by simp [ha])
    have : a = [] := by
      have := congrArg List.length e2
      simp at this
      exact this
    subst this
    obtain ⟨-, e4⟩ := cut_eq e3 hbc hbc
    exact ⟨rfl, by rw [← e4]⟩

theorem key_no_marker {base : Str} (hb : Spec.PlainBase base) (n : Nat) :
    containsStr (uidOf base ++ t!"linkStartMarker:") (shelfKey (uidOf base) n) = false := by
  cases h : containsStr (uidOf base ++ t!"linkStartMarker:") (shelfKey (uidOf base) n) with
  | false => rfl
  | true =>
    exfalso
    obtain ⟨a, b, e⟩ := containsStr_iff.1 h
    rw [List.append_assoc] at e
    obtain ⟨-, h2⟩ := uid_in_key hb e
    have : 'l' ∈ natStr n := by
      cases hn : natStr n with
      | nil => exact absurd hn (natStr_ne_nil n)
      | cons y l => rw [hn] at h2; simp at h2; rw [h2.1]; simp
    have := natStr_alnum this
    revert this; decide

/-- A placeholder is left alone by `graf`. -/
theorem leaves_key {C : Ctx} (hU : UniOk C.U) (hf : 0 < C.fuel) {base : Str} (hb : Spec.PlainBase base)
    (hc : C.cfg.uid = uidOf base) (n : Nat) :
    Leaves C (graf C C.fuel (shelfKey C.cfg.uid n)) (shelfKey C.cfg.uid n) := by
  obtain ⟨f, hf'⟩ : ∃ f, C.fuel = f + 1 := ⟨C.fuel - 1, by omega⟩
  rw [hf', hc]
  exact Leaves.graf hf (quiet_key hU hb n) f (by rw [hc]; exact key_no_marker hb n)

/-- Paragraphs and headings. -/
theorem runs_blockNew {C : Ctx} {g : Str → Prog Str} {tag t u : Str} {σ σ' : PState} (ht : tag ∈ brTags) (hne : t ≠ [])
    (hnd : NOTEDEF_RE.search C.U [] t = none) (hg : Runs C (g t) u σ σ') :
    Runs C (blockNew C g tag [] none t)
      { innerOpening := openTag tag, innerClosing := closeTag tag, content := u } σ σ' := by
  unfold blockNew
  rw [parseAttrs_nil, pure_bind]
  have h1 : (if tag = t!"p" then replaceP C NOTEDEF_RE (parseNoteDefs C g) t else pure t!"-" : Prog Str) =
      pure (if tag = t!"p" then t else t!"-") := by
    split
    · exact replaceP_none hnd
    · rfl
  rw [h1, pure_bind]
  rw [if_neg (by
    rintro ⟨h, h'⟩
    rw [if_pos h] at h'
    cases t
    · exact hne rfl
    · simp at h')]
  have h2 : ∀ c, footnoteBlock C tag [] {} c = pure (tag, {}, c) := by
    intro c
    have : FNID_RE.captures C.U tag = none := by
      simp only [brTags, List.mem_cons, List.not_mem_nil, or_false] at ht
      rcases ht with rfl | rfl | rfl | rfl | rfl | rfl | rfl <;> kernel_rfl
    unfold footnoteBlock
    rw [this]
  rw [h2, pure_bind]
  have h3 : blockTagsOf C tag {} {} none t =
      pure { innerOpening := openTag tag, innerClosing := closeTag tag, content := t } := by
    simp only [brTags, List.mem_cons, List.not_mem_nil, or_false] at ht
    rcases ht with rfl | rfl | rfl | rfl | rfl | rfl | rfl <;> rfl
  simp only [h3, pure_bind]
  exact hg.bind (Runs.pure _ _)

/-- Quotations. -/
theorem runs_blockNew_bq {C : Ctx} {g : Str → Prog Str} {t u : Str} {σ σ' : PState} (hg : Runs C (g t) u σ σ') :
    Runs C (blockNew C g t!"bq" [] none t)
      { outerOpening := t!"<blockquote>\n", innerOpening := t!"\t<p>", innerClosing := t!"</p>"
        outerClosing := t!"\n</blockquote>", content := u } σ σ' := by
  unfold blockNew
  rw [parseAttrs_nil, pure_bind]
  have h2 : ∀ c, footnoteBlock C t!"bq" [] {} c = pure (t!"bq", {}, c) := by
    intro c
    have : FNID_RE.captures C.U t!"bq" = none := by kernel_rfl
    unfold footnoteBlock
    rw [this]
  have h3 : blockTagsOf C t!"bq" {} {} none t =
      pure { outerOpening := t!"<blockquote>\n", innerOpening := t!"\t<p>", innerClosing := t!"</p>"
             outerClosing := t!"\n</blockquote>", content := t } := rfl
  rw [if_neg (by decide), pure_bind, if_neg (by decide), h2, pure_bind]
  simp only [h3, pure_bind]
  exact hg.bind (Runs.pure _ _)

/-- The parts of a verbatim block: opening and closing tags and the text set aside. -/
def verbatimParts (tag t : Str) : Str × Str × Str :=
  if tag = t!"bc" then (t!"<pre><code>", t!"</code></pre>", encodeHtml t true false)
  else if tag = t!"pre" then (t!"<pre>", t!"</pre>", encodeHtml t true false)
  else ([], [], t)

/-- Blocks whose text is set aside. -/
theorem runs_blockNew_verbatim {C : Ctx} {g : Str → Prog Str} {tag t : Str} {σ : PState}
    (ht : tag ∈ [t!"bc", t!"pre", t!"notextile"])
    (hg : ∀ σ n, Runs C (g (shelfKey C.cfg.uid n)) (shelfKey C.cfg.uid n) σ σ) :
    Runs C (blockNew C g tag [] none t)
      { outerOpening := (verbatimParts tag t).1, outerClosing := (verbatimParts tag t).2.1
        content := shelfKey C.cfg.uid (σ.refIndex + 1) } σ (σ.shelved C.cfg.uid (verbatimParts tag t).2.2) := by
  unfold blockNew
  rw [parseAttrs_nil, pure_bind]
  have h2 : ∀ c, footnoteBlock C tag [] {} c = pure (tag, {}, c) := by
    intro c
    have : FNID_RE.captures C.U tag = none := by
      simp only [List.mem_cons, List.not_mem_nil, or_false] at ht
      rcases ht with rfl | rfl | rfl <;> kernel_rfl
    unfold footnoteBlock
    rw [this]
  have hp : tag ≠ t!"p" := by rintro rfl; revert ht; decide
  have h3 : blockTagsOf C tag {} {} none t = (do
      let tok ← shelveP (verbatimParts tag t).2.2
      pure { outerOpening := (verbatimParts tag t).1, outerClosing := (verbatimParts tag t).2.1, content := tok }) := by
    simp only [List.mem_cons, List.not_mem_nil, or_false] at ht
    rcases ht with rfl | rfl | rfl <;> rfl
  rw [if_neg hp, pure_bind, if_neg (fun h => hp h.1), h2, pure_bind]
  simp only [h3, LawfulMonad.bind_assoc, pure_bind]
  refine (Runs.shelve _ _ _).bind ?_
  simp only [Bool.false_eq_true, if_false]
  exact (hg _ _).bind (Runs.pure _ _)

/-- Comments. -/
theorem runs_blockNew_comment {C : Ctx} {g : Str → Prog Str} {t : Str} {σ : PState} :
    Runs C (blockNew C g t!"###" [] none t) { eat := true } σ σ := by
  unfold blockNew
  rw [parseAttrs_nil, pure_bind]
  have h2 : ∀ c, footnoteBlock C t!"###" [] {} c = pure (t!"###", {}, c) := by
    intro c
    have : FNID_RE.captures C.U t!"###" = none := by kernel_rfl
    unfold footnoteBlock
    rw [this]
  have h3 : blockTagsOf C t!"###" {} {} none t = pure { eat := true, content := t } := rfl
  rw [if_neg (by decide), pure_bind, if_neg (by decide), h2, pure_bind]
  simp only [h3, pure_bind]
  exact Runs.pure _ _

end Rustextile
