import Verif.GrafRuns

/-!
# Putting back what placeholders stand for

`RepK`: a text with placeholders for texts set aside and for tags, and the text with all of them put back.
-/

namespace Rustextile

open Prog

/-! ## The first colon -/

theorem colon_inj {x y x' y' : Str} (h : x ++ ':' :: y = x' ++ ':' :: y') (hx : ':' ∉ x) (hx' : ':' ∉ x') : x = x' ∧ y = y' := by
  induction x generalizing x' with
  | nil =>
    cases x' with
    | nil => simpa using h
    | cons a x' => simp at h hx'; exact absurd h.1 hx'.1
  | cons a x ih =>
    cases x' with
    | nil => simp at h hx; exact absurd h.1.symm hx.1
    | cons b x' =>
      simp at h hx hx'
      have := ih h.2 hx.2 hx'.2
      exact ⟨by rw [h.1, this.1], this.2⟩

def refWord : Str := t!"textileRef"

theorem uidOf_eq (base : Str) : uidOf base = refWord ++ ':' :: (base ++ [':']) := by simp [uidOf, refWord]

theorem ospan_eq (base : Str) (n : Nat) (r : Str) :
    ospan (uidOf base) n ++ r = refWord ++ ':' :: (base ++ ':' :: (natStr n ++ ':' :: (t!"ospan " ++ r))) := by
  simp [ospan, uidOf, refWord]

theorem cspan_eq (base : Str) (n : Nat) (r : Str) :
    cspan (uidOf base) n ++ r = ' ' :: (refWord ++ ':' :: (base ++ ':' :: (natStr n ++ ':' :: (t!"cspan" ++ r)))) := by
  simp [cspan, uidOf, refWord]


theorem key_eq (base : Str) (n : Nat) (r : Str) :
    shelfKey (uidOf base) n ++ r = refWord ++ ':' :: (base ++ ':' :: (natStr n ++ ':' :: (t!"shelve" ++ r))) := by
  simp [shelfKey, uidOf, refWord]

/-- The placeholder of an address. -/
def urlTok (uid : Str) (n : Nat) : Str := uid ++ natStr n ++ t!":url"

theorem url_eq (base : Str) (n : Nat) (r : Str) :
    urlTok (uidOf base) n ++ r = refWord ++ ':' :: (base ++ ':' :: (natStr n ++ ':' :: (t!"url" ++ r))) := by
  simp [urlTok, uidOf, refWord]

theorem prefix_ref {base t : Str} (h : uidOf base <+: t) : ∃ y, t = refWord ++ ':' :: (base ++ ':' :: y) := by
  obtain ⟨y, rfl⟩ := h
  exact ⟨y, by simp [uidOf, refWord]⟩

/-- The token does not start inside a placeholder. -/
theorem uid_inside {base : Str} (hb : ':' ∉ base) {ds : Str} (hd : ∀ c ∈ ds, c ≠ 't' ∧ c ≠ ':') {w : Str} (hw : 't' ∉ w) {u v rest : Str} {y : Char} (hu : u ≠ [])
    (e : uidOf base ++ (ds ++ ':' :: w) = u ++ y :: v) : ¬ uidOf base <+: y :: v ++ rest := by
  intro hp
  have hdc : ':' ∉ ds := fun h => (hd _ h).2 rfl
  obtain ⟨z, ez⟩ := prefix_ref hp
  have hy : y = 't' := by simp [refWord] at ez; exact ez.1
  have e1 : refWord ++ (':' :: (base ++ ':' :: (ds ++ ':' :: w))) = u ++ y :: v := by
    rw [← e]; simp [uidOf, refWord]
  -- a part `s` of a component before a colon
  have key : ∀ s r : Str, ':' ∉ s → y :: v = s ++ ':' :: r → s = refWord ∧ ∃ z', r ++ rest = base ++ ':' :: z' := by
    intro s r hs he
    have e4 : (s ++ ':' :: r) ++ rest = refWord ++ ':' :: (base ++ ':' :: z) := by rw [← he]; exact ez
    rw [List.append_assoc, List.cons_append] at e4
    have := colon_inj e4 hs (by decide)
    exact ⟨this.1, z, this.2⟩
  rw [List.append_eq_append_iff] at e1
  rcases e1 with ⟨a, e1, e2⟩ | ⟨a, e1, e2⟩
  · cases a with
    | nil => simp at e2; rw [← e2.1] at hy; cases hy
    | cons c a =>
      simp only [List.cons_append, List.cons.injEq] at e2
      have e3 := e2.2
      rw [List.append_eq_append_iff] at e3
      rcases e3 with ⟨a', e4, e5⟩ | ⟨a', e4, e5⟩
      · cases a' with
        | nil => simp at e5; rw [← e5.1] at hy; cases hy
        | cons c' a' =>
          simp only [List.cons_append, List.cons.injEq] at e5
          have e6 := e5.2
          rw [List.append_eq_append_iff] at e6
          rcases e6 with ⟨a2, e7, e8⟩ | ⟨a2, e7, e8⟩
          · cases a2 with
            | nil => simp at e8; rw [← e8.1] at hy; cases hy
            | cons c2 a2 =>
              simp only [List.cons_append, List.cons.injEq] at e8
              exact hw (by rw [e8.2, hy]; simp)
          · cases a2 with
            | nil => simp at e8; rw [e8.1] at hy; cases hy
            | cons c2 a2 =>
              have := (key (c2 :: a2) w (by rw [e7] at hdc; simp at hdc ⊢; exact hdc.2) e8).1
              have h2 : 't' ∈ ds := by rw [e7, this]; simp [refWord]
              exact (hd _ h2).1 rfl
      · cases a' with
        | nil => simp at e5; rw [e5.1] at hy; cases hy
        | cons c' a' =>
          have hs : ':' ∉ c' :: a' := by rw [e4] at hb; simp at hb ⊢; exact hb.2
          obtain ⟨k1, z', k2⟩ := key (c' :: a') (ds ++ ':' :: w) hs e5
          rw [List.append_assoc, List.cons_append] at k2
          have := (colon_inj k2 hdc hb).1
          have h2 : 't' ∈ ds := by rw [this, e4, k1]; simp [refWord]
          exact (hd _ h2).1 rfl
  · cases a with
    | nil => simp at e2; rw [e2.1] at hy; cases hy
    | cons c a =>
      have hs : ':' ∉ c :: a := by
        intro h
        have : ':' ∈ refWord := by rw [e1]; exact List.mem_append_right _ h
        revert this; decide
      have := (key (c :: a) _ hs e2).1
      rw [this] at e1
      have := congrArg List.length e1
      cases u with
      | nil => exact hu rfl
      | cons x u => simp only [List.length_append, List.length_cons] at this; omega

/-! ## The patterns of placeholders -/

theorem seq_lit_none {U : Uni} {k : Str} {r : Re} {pre t : Str} (h : ¬ k <+: t) :
    (Re.seq (Re.lit k) r).matchAt U ⟨pre, t⟩ = none := by
  rw [Re.matchAt_none, all_seq, Re.lit_all, if_neg]
  · rfl
  · intro h'; exact h (List.isPrefixOf_iff_prefix.1 h')

/-- Digits and a word after the token. -/
def tailRe (w : Str) : Re :=
  .seq (.grp 1 (.seq (.set false [.range '0' '9']) (.star true (.set false [.range '0' '9'])))) (Re.lit w)

theorem OSPAN_shape : OSPAN_TOKEN_TAIL = tailRe t!":ospan " := by kernel_rfl
theorem CSPAN_shape : CSPAN_TOKEN_TAIL = tailRe t!":cspan" := by kernel_rfl
theorem URL_shape : URL_TOKEN_TAIL = tailRe t!":url" := by kernel_rfl

theorem digit_set {U : Uni} {c : Char} : evalSet U false [.range '0' '9'] c = isDigitC c := by
  simp [evalSet, Item.eval, isDigitC]

theorem natStr_cons (n : Nat) : ∃ d ds, natStr n = d :: ds := by
  cases h : natStr n with
  | nil => exact absurd h (natStr_ne_nil n)
  | cons d ds => exact ⟨d, ds, rfl⟩

theorem tail_hit {U : Uni} {k w : Str} (hw : w.head? = some ':') (pre rest : Str) (n : Nat) :
    (Re.seq (Re.lit k) (tailRe w)).matchAt U ⟨pre, (k ++ (natStr n ++ w)) ++ rest⟩ =
      some (⟨(k ++ (natStr n ++ w)).reverse ++ pre, rest⟩, [(1, natStr n)]) := by
  rw [Re.matchAt_eq, all_seq, Re.lit_all, if_pos (List.isPrefixOf_iff_prefix.2 ⟨natStr n ++ w ++ rest, by simp⟩)]
  simp only [List.flatMap_cons, List.flatMap_nil, List.append_nil, List.append_assoc, List.drop_left]
  obtain ⟨d, ds, hds⟩ := natStr_cons n
  have hdig : ∀ c ∈ d :: ds, evalSet U false [.range '0' '9'] c = true := by
    intro c hc
    rw [digit_set]; exact natStr_digits n c (by rw [hds]; exact hc)
  obtain ⟨l, hl⟩ := star_greedy_head (U := U) (n := false) (it := [.range '0' '9']) (s := []) (w := ds) (rest := w ++ rest)
    (pre := d :: (k.reverse ++ pre)) (fun x hx => hdig x (List.mem_cons_of_mem _ hx)) (by
      intro x hx
      cases w with
      | nil => simp at hw
      | cons a w => simp at hw hx; rw [digit_set, ← hx, hw]; decide)
  have hg : (Re.grp 1 (.seq (.set false [.range '0' '9']) (.star true (.set false [.range '0' '9'])))).all U
      ⟨k.reverse ++ pre, natStr n ++ (w ++ rest)⟩ [] =
      (⟨(natStr n).reverse ++ (k.reverse ++ pre), w ++ rest⟩, [(1, natStr n)]) ::
        l.map (fun p => (p.1, (1, between ⟨k.reverse ++ pre, natStr n ++ (w ++ rest)⟩ p.1) :: p.2)) := by
    rw [Re.all]
    rw [hds, List.cons_append, all_seq_set_cons, hdig d (by simp), if_pos rfl, hl, List.map_cons]
    have : Adv ⟨k.reverse ++ pre, d :: (ds ++ (w ++ rest))⟩ (d :: ds) ⟨ds.reverse ++ d :: (k.reverse ++ pre), w ++ rest⟩ := by
      refine ⟨by simp, by simp⟩
    rw [this.between]
    simp
  rw [tailRe, all_seq, hg, List.flatMap_cons, Re.lit_all, if_pos (List.isPrefixOf_iff_prefix.2 ⟨rest, rfl⟩)]
  simp

theorem tail_other {U : Uni} {k w w' : Str} (hne : ∀ r r', w ++ r ≠ w' ++ r') (pre rest : Str) (n : Nat) :
    (Re.seq (Re.lit k) (tailRe (':' :: w))).matchAt U ⟨pre, k ++ (natStr n ++ ':' :: (w' ++ rest))⟩ = none := by
  cases hm : (Re.seq (Re.lit k) (tailRe (':' :: w))).matchAt U ⟨pre, k ++ (natStr n ++ ':' :: (w' ++ rest))⟩ with
  | none => rfl
  | some q =>
    exfalso
    obtain ⟨u, r, e1, -, h⟩ := Takes.of_matchAt (e := q.1) (s := q.2) hm
    have hl := h.lang
    rw [lang_seq] at hl
    obtain ⟨a, b, rfl, ha, hb⟩ := hl
    rw [lang_lit ha] at e1
    rw [tailRe, lang_seq] at hb
    obtain ⟨c, d, rfl, hc, hd⟩ := hb
    rw [lang_lit hd] at e1
    simp only [lang_grp, lang_seq, lang_set, lang_star_set] at hc
    obtain ⟨x, y, rfl, ⟨x', rfl, hx'⟩, hy⟩ := hc
    simp only [List.append_assoc, List.append_cancel_left_eq, List.cons_append, List.nil_append] at e1
    have hn : ':' ∉ natStr n := by
      intro h'; have := natStr_alnum h'; revert this; decide
    have hxy : ':' ∉ x' :: y := by
      intro h'
      have : evalSet U false [.range '0' '9'] ':' = true := by
        rcases List.mem_cons.1 h' with h' | h'
        · rw [h']; exact hx'
        · exact hy _ h'
      rw [digit_set] at this; revert this; decide
    have e2 : natStr n ++ ':' :: (w' ++ rest) = (x' :: y) ++ ':' :: (w ++ r) := e1
    exact hne _ _ (colon_inj e2 hn hxy).2.symm

/-! ## Two passes -/

theorem base_colon {base : Str} (hb : Spec.PlainBase base) : ':' ∉ base := by
  intro h; have := hb.chars _ h; revert this; decide

/-- The tag for a placeholder. -/
def tagOf (σ : PState) (m : Mat) : Prog Str := ofR (fRetrieveTag σ m)

theorem runs_tagOf {C : Ctx} {σ : PState} {n : Nat} {o : Str} (hn : n < 2 ^ 32) (h : alLookup n σ.refCache = some o)
    (w gap : Str) : Runs C (tagOf σ ⟨gap, w, [(1, natStr n)]⟩) o σ σ := by
  unfold tagOf fRetrieveTag
  simp only [Mat.grp, Mat.get?, alLookup]
  rw [if_neg (by decide), if_pos trivial, Option.getD_some, parseU32_natStr hn]
  simp only [h, Option.getD_some]
  exact Runs.pure _ _

theorem uid_no_t {base : Str} (t : Str) : ¬ uidOf base <+: ' ' :: t := by
  intro h
  obtain ⟨y, e⟩ := prefix_ref h
  simp [refWord] at e


/-- Characters that never are in the token. -/
abbrev Sep (c : Char) : Prop := Spec.tokenChar c = false

theorem sep_uid {base : Str} (hb : Spec.PlainBase base) {c : Char} (h : Sep c) : c ∉ uidOf base := by
  intro hm
  have key : Spec.tokenChar c = true := by
    simp only [uidOf, List.mem_append] at hm
    rcases hm with (hm | hm) | hm
    · exact (by decide : ∀ x ∈ (t!"textileRef:" : Str), Spec.tokenChar x = true) c hm
    · have := hb.chars c hm
      unfold Spec.tokenChar
      rcases this with h | h | h <;> simp [h]
    · exact (by decide : ∀ x ∈ (t!":" : Str), Spec.tokenChar x = true) c hm
  exact absurd (key.symm.trans h) (by decide)

/-- A piece of text that can stand anywhere without making up a token with its neighbours. -/
structure Sealed (uid w : Str) : Prop where
  first : ∃ c m, w = c :: m ∧ Sep c
  last : ∃ m c, w = m ++ [c] ∧ Sep c
  clean : containsStr uid w = false

/-- The first colon of a text is in a placeholder or after a character that is not in the token. -/
def Coloned (t : Str) : Prop := ∀ x y, t = x ++ ':' :: y → ':' ∉ x → (∃ p, x = p ++ refWord) ∨ ∃ c ∈ x, Sep c

theorem Coloned.nil : Coloned [] := by intro x y e; simp at e

theorem Coloned.cons {c : Char} {t : Str} (hc : c ≠ ':') (h : Coloned t) : Coloned (c :: t) := by
  intro x y e hx
  cases x with
  | nil => simp at e; exact absurd e.1 hc
  | cons a x =>
    simp at e hx
    rcases h x y e.2 hx.2 with ⟨p, hp⟩ | ⟨d, hd, hd'⟩
    · exact .inl ⟨a :: p, by rw [hp]; rfl⟩
    · exact .inr ⟨d, List.mem_cons_of_mem _ hd, hd'⟩

theorem Coloned.append {w t : Str} (hw : ':' ∉ w) (h : Coloned t) : Coloned (w ++ t) := by
  induction w with
  | nil => exact h
  | cons c w ih =>
    simp at hw
    exact .cons (fun e => hw.1 e.symm) (ih hw.2)

theorem Coloned.sep {c : Char} {t : Str} (h : Sep c) : Coloned (c :: t) := by
  intro x y e hx
  cases x with
  | nil => simp at e; rw [e.1] at h; exact absurd h (by decide)
  | cons a x => simp at e; exact .inr ⟨a, by simp, by rw [← e.1]; exact h⟩

theorem Coloned.ref {t : Str} : Coloned (refWord ++ ':' :: t) := by
  intro x y e hx
  exact .inl ⟨[], (colon_inj e (by decide) hx).1.symm⟩

/-- The token does not start before such a text. -/
theorem Coloned.no_uid {base : Str} {c : Char} {t : Str} (h : Coloned t) : ¬ uidOf base <+: c :: t := by
  intro hp
  obtain ⟨y, e⟩ := prefix_ref hp
  have e' : c :: t = 't' :: (t!"extileRef" ++ ':' :: (base ++ ':' :: y)) := e
  simp only [List.cons.injEq] at e'
  rcases h _ _ e'.2 (by decide) with ⟨p, hp⟩ | ⟨d, hd, hd'⟩
  · have := congrArg List.length hp
    simp [refWord] at this
  · have s : ∀ x ∈ (t!"extileRef" : Str), ¬ Sep x := by decide
    exact s d hd hd'

/-- The token starts nowhere in a piece of text of its own. -/
theorem Sealed.no_uid {base : Str} (hb : Spec.PlainBase base) {w : Str} (h : Sealed (uidOf base) w) {u v r : Str} {y : Char}
    (e : w = u ++ y :: v) : ¬ uidOf base <+: y :: v ++ r := by
  intro hp
  obtain ⟨t, ht⟩ := hp
  rw [List.append_eq_append_iff] at ht
  rcases ht with ⟨b, hb', -⟩ | ⟨b, hb', -⟩
  · have := h.clean
    rw [containsStr_iff.2 ⟨u, b, by rw [e, hb']⟩] at this
    cases this
  · obtain ⟨m, c, hm, hc⟩ := h.last
    have : c ∈ y :: v := by
      have h1 : (u ++ y :: v).getLast? = some c := by rw [← e, hm]; simp
      rw [List.getLast?_append] at h1
      have h2 : (y :: v).getLast? = some c := by
        cases hv : (y :: v).getLast? with
        | none => simp at hv
        | some d => rw [hv] at h1; simpa using h1
      exact List.mem_of_getLast? h2
    exact sep_uid hb hc (by rw [hb']; exact List.mem_append_left _ this)

theorem Sealed.colon {uid w t : Str} (h : Sealed uid w) : Coloned (w ++ t) := by
  obtain ⟨c, m, e, hc⟩ := h.first
  rw [e]; exact .sep hc

theorem Sealed.tag {uid m : Str} (h : containsStr uid ('<' :: (m ++ ['>'])) = false) : Sealed uid ('<' :: (m ++ ['>'])) :=
  ⟨⟨_, _, rfl, by decide⟩, ⟨'<' :: m, '>', rfl, by decide⟩, h⟩

/-! ## Texts with placeholders -/

/-- A text in which placeholders stand for texts set aside and for tags, and the text with all of them put back.
`d` bounds the nesting of the texts set aside; the placeholders at the outermost nesting satisfy `P`. -/
inductive RepK (uid : Str) (σ : PState) : Nat → (Nat → Prop) → Str → Str → Prop
  | nil {d P} : RepK uid σ d P [] []
  | char {d P} {c : Char} {r h : Str} : c ≠ ':' → RepK uid σ d P r h → RepK uid σ d P (c :: r) (c :: h)
  | chunk {d P} {w r h : Str} : Sealed uid w → RepK uid σ d P r h → RepK uid σ d P (w ++ r) (w ++ h)
  | opening {d P} {n : Nat} {o r h : Str} : n < 2 ^ 32 → alLookup n σ.refCache = some o → Sealed uid o → RepK uid σ d P r h →
      RepK uid σ d P (ospan uid n ++ r) (o ++ h)
  | closing {d P} {n : Nat} {o r h : Str} : n < 2 ^ 32 → alLookup n σ.refCache = some o → Sealed uid o → RepK uid σ d P r h →
      RepK uid σ d P (cspan uid n ++ r) (o ++ h)
  | url {d P} {n : Nat} {o r h : Str} : n < 2 ^ 32 → alLookup n σ.refCache = some o → RepK uid σ d P r h →
      RepK uid σ d P ('"' :: (urlTok uid n ++ r)) ('"' :: (o ++ h))
  | glyph {d P} {r h : Str} : RepK uid σ d P r h → RepK uid σ d P ('>' :: (uid ++ (t!":glyph:" ++ r))) ('>' :: h)
  | key {d e P} {n : Nat} {a v z m r h : Str} : e < d → (e + 1 = d → P n) → alLookup (shelfKey uid n) σ.shelf = some v →
      ':' ∉ a → ':' ∉ z → RepK uid σ e (fun _ => True) (a ++ (v ++ z)) m → RepK uid σ d P r h →
      RepK uid σ d P (a ++ (shelfKey uid n ++ (z ++ r))) (m ++ h)

/-- The same with placeholders for tags and addresses only. -/
inductive RepO (uid : Str) (σ : PState) : Str → Str → Prop
  | nil : RepO uid σ [] []
  | char {c : Char} {r h : Str} : c ≠ ':' → RepO uid σ r h → RepO uid σ (c :: r) (c :: h)
  | chunk {w r h : Str} : Sealed uid w → RepO uid σ r h → RepO uid σ (w ++ r) (w ++ h)
  | opening {n : Nat} {o r h : Str} : n < 2 ^ 32 → alLookup n σ.refCache = some o → Sealed uid o → RepO uid σ r h →
      RepO uid σ (ospan uid n ++ r) (o ++ h)
  | closing {n : Nat} {o r h : Str} : n < 2 ^ 32 → alLookup n σ.refCache = some o → Sealed uid o → RepO uid σ r h →
      RepO uid σ (cspan uid n ++ r) (o ++ h)
  | url {n : Nat} {o r h : Str} : n < 2 ^ 32 → alLookup n σ.refCache = some o → RepO uid σ r h →
      RepO uid σ ('"' :: (urlTok uid n ++ r)) ('"' :: (o ++ h))

/-- The same with placeholders for closing tags and addresses only. -/
inductive RepC (uid : Str) (σ : PState) : Str → Str → Prop
  | nil : RepC uid σ [] []
  | char {c : Char} {r h : Str} : c ≠ ':' → RepC uid σ r h → RepC uid σ (c :: r) (c :: h)
  | chunk {w r h : Str} : Sealed uid w → RepC uid σ r h → RepC uid σ (w ++ r) (w ++ h)
  | closing {n : Nat} {o r h : Str} : n < 2 ^ 32 → alLookup n σ.refCache = some o → Sealed uid o → RepC uid σ r h →
      RepC uid σ (cspan uid n ++ r) (o ++ h)
  | url {n : Nat} {o r h : Str} : n < 2 ^ 32 → alLookup n σ.refCache = some o → RepC uid σ r h →
      RepC uid σ ('"' :: (urlTok uid n ++ r)) ('"' :: (o ++ h))

/-- The same with placeholders for addresses only. -/
inductive RepU (uid : Str) (σ : PState) : Str → Str → Prop
  | nil : RepU uid σ [] []
  | char {c : Char} {r h : Str} : c ≠ ':' → RepU uid σ r h → RepU uid σ (c :: r) (c :: h)
  | chunk {w r h : Str} : Sealed uid w → RepU uid σ r h → RepU uid σ (w ++ r) (w ++ h)
  | url {n : Nat} {o r h : Str} : n < 2 ^ 32 → alLookup n σ.refCache = some o → RepU uid σ r h →
      RepU uid σ ('"' :: (urlTok uid n ++ r)) ('"' :: (o ++ h))

theorem RepK.text {uid : Str} {σ : PState} {d : Nat} {P : Nat → Prop} {r h : Str} (hr : RepK uid σ d P r h) :
    ∀ {w : Str}, ':' ∉ w → RepK uid σ d P (w ++ r) (w ++ h)
  | [], _ => hr
  | c :: w, hw => by
    simp at hw
    exact .char (fun e => hw.1 e.symm) (hr.text hw.2)

theorem RepK.append {uid : Str} {σ : PState} {d : Nat} {P : Nat → Prop} {r h r' h' : Str} (hr : RepK uid σ d P r h)
    (hr' : RepK uid σ d P r' h') : RepK uid σ d P (r ++ r') (h ++ h') := by
  induction hr with
  | nil => exact hr'
  | char hc _ ih => exact .char hc (ih hr')
  | chunk hw _ ih => rw [List.append_assoc, List.append_assoc]; exact .chunk hw (ih hr')
  | opening h1 h2 h3 _ ih => rw [List.append_assoc, List.append_assoc]; exact .opening h1 h2 h3 (ih hr')
  | closing h1 h2 h3 _ ih => rw [List.append_assoc, List.append_assoc]; exact .closing h1 h2 h3 (ih hr')
  | url h1 h2 _ ih => simp only [List.cons_append, List.append_assoc]; exact .url h1 h2 (ih hr')
  | glyph _ ih => simp only [List.cons_append, List.append_assoc]; exact .glyph (ih hr')
  | key h1 h2 h3 h4 h5 h6 _ _ ih =>
    simp only [List.append_assoc]; exact .key h1 h2 h3 h4 h5 h6 (ih hr')

theorem RepK.lift {uid : Str} {σ : PState} {d d' : Nat} {P Q : Nat → Prop} {r h : Str} (hr : RepK uid σ d P r h) (hd : d ≤ d')
    (hP : d = d' → ∀ n, P n → Q n) : RepK uid σ d' Q r h := by
  induction hr with
  | nil => exact .nil
  | char hc _ ih => exact .char hc (ih hd hP)
  | chunk hw _ ih => exact .chunk hw (ih hd hP)
  | opening h1 h2 h3 _ ih => exact .opening h1 h2 h3 (ih hd hP)
  | closing h1 h2 h3 _ ih => exact .closing h1 h2 h3 (ih hd hP)
  | url h1 h2 _ ih => exact .url h1 h2 (ih hd hP)
  | glyph _ ih => exact .glyph (ih hd hP)
  | key h1 h2 h3 h4 h5 h6 _ _ ih =>
    exact .key (by omega) (fun e => hP (by omega) _ (h2 (by omega))) h3 h4 h5 h6 (ih hd hP)

theorem RepK.colon {base : Str} {σ : PState} {d : Nat} {P : Nat → Prop} {r h : Str} (hr : RepK (uidOf base) σ d P r h) :
    Coloned r := by
  induction hr with
  | nil => exact .nil
  | char hc _ ih => exact .cons hc ih
  | chunk hw _ ih => exact hw.colon
  | opening _ _ _ _ ih => rw [ospan_eq]; exact Coloned.ref
  | closing _ _ _ _ ih => rw [cspan_eq]; exact .cons (by decide) (Coloned.ref)
  | url _ _ _ ih => exact .sep (by decide)
  | glyph _ ih => exact .sep (by decide)
  | key _ _ _ ha _ _ _ _ ih => rw [key_eq]; exact .append ha (Coloned.ref)

/-- Where the token starts in a text: at placeholders only. -/
theorem skips_placeholder {base : Str} (hb : Spec.PlainBase base) {a z w r ds : Str} (hd : ∀ c ∈ ds, c ≠ 't' ∧ c ≠ ':') (ha : ':' ∉ a) (hz : ':' ∉ z)
    (hw : 't' ∉ w) (hr : Coloned r) {u v : Str} {y : Char}
    (e : a ++ ((uidOf base ++ (ds ++ ':' :: w)) ++ z) = u ++ y :: v) (hu : u ≠ a) : ¬ uidOf base <+: y :: v ++ r := by
  rw [List.append_eq_append_iff] at e
  rcases e with ⟨s, e1, e2⟩ | ⟨s, e1, e2⟩
  · -- the position is after `a`
    cases s with
    | nil => simp at e1; exact absurd e1 hu
    | cons x s =>
      rw [List.append_eq_append_iff] at e2
      rcases e2 with ⟨s', e3, e4⟩ | ⟨s', e3, e4⟩
      · -- in `z`
        have : Coloned (v ++ r) := by
          refine .append ?_ hr
          intro h; apply hz; rw [e4]; simp [h]
        exact this.no_uid
      · cases s' with
        | nil =>
          simp only [List.nil_append] at e4
          have : Coloned (v ++ r) := by
            refine .append ?_ hr
            intro h; apply hz; rw [← e4]; simp [h]
          exact this.no_uid
        | cons y' s' =>
          simp only [List.cons_append, List.cons.injEq] at e4
          have := uid_inside (base_colon hb) hd hw (u := x :: s) (v := s') (y := y') (rest := z ++ r) (by simp) e3
          rw [e4.1, e4.2, List.cons_append, List.append_assoc]
          simpa using this
  · -- in `a`
    cases s with
    | nil => simp at e1; exact absurd e1.symm hu
    | cons x s =>
      simp only [List.cons_append, List.cons.injEq] at e2
      have : Coloned (v ++ r) := by
        rw [e2.2, List.append_assoc]
        refine .append ?_ ?_
        · intro h; apply ha; rw [e1]; simp [h]
        · have := Coloned.ref (t := base ++ ':' :: (ds ++ ':' :: w) ++ z ++ r)
          simpa [uidOf, refWord] using this
      exact this.no_uid

theorem natStr_plain (n : Nat) : ∀ c ∈ natStr n, c ≠ 't' ∧ c ≠ ':' := by
  intro c hc
  have := natStr_alnum hc
  constructor <;> (rintro rfl; revert this; decide)

theorem skips_token {base : Str} (hb : Spec.PlainBase base) {a z w r : Str} {n : Nat} (ha : ':' ∉ a) (hz : ':' ∉ z)
    (hw : 't' ∉ w) (hr : Coloned r) {u v : Str} {y : Char}
    (e : a ++ ((uidOf base ++ (natStr n ++ ':' :: w)) ++ z) = u ++ y :: v) (hu : u ≠ a) : ¬ uidOf base <+: y :: v ++ r :=
  skips_placeholder hb (natStr_plain n) ha hz hw hr e hu

/-- The mark before capitals. -/
theorem glyph_form (base r : Str) : '>' :: (uidOf base ++ (t!":glyph:" ++ r)) =
    (['>'] ++ ((uidOf base ++ ([] ++ ':' :: t!"glyph:")) ++ [])) ++ r := by simp

theorem skips_glyph {base : Str} (hb : Spec.PlainBase base) {r : Str} (hr : Coloned r) {u v : Str} {y : Char}
    (e : ['>'] ++ ((uidOf base ++ ([] ++ ':' :: t!"glyph:")) ++ []) = u ++ y :: v) (hu : u ≠ ['>']) : ¬ uidOf base <+: y :: v ++ r :=
  skips_placeholder hb (ds := []) (by simp) (by decide) (by simp) (by decide) hr e hu

theorem ospan_form (base : Str) (n : Nat) : ospan (uidOf base) n = [] ++ ((uidOf base ++ (natStr n ++ ':' :: t!"ospan ")) ++ []) := by
  simp [ospan]

theorem cspan_form (base : Str) (n : Nat) : cspan (uidOf base) n = t!" " ++ ((uidOf base ++ (natStr n ++ ':' :: t!"cspan")) ++ []) := by
  simp [cspan]

theorem url_form (base : Str) (n : Nat) : '"' :: urlTok (uidOf base) n = ['"'] ++ ((uidOf base ++ (natStr n ++ ':' :: t!"url")) ++ []) := by
  simp [urlTok]

theorem url_form' (base : Str) (n : Nat) (r : Str) : '"' :: (urlTok (uidOf base) n ++ r) =
    (['"'] ++ ((uidOf base ++ (natStr n ++ ':' :: t!"url")) ++ [])) ++ r := by
  simp [urlTok]

theorem key_form (base : Str) (n : Nat) (a z : Str) :
    a ++ (shelfKey (uidOf base) n ++ z) = a ++ ((uidOf base ++ (natStr n ++ ':' :: t!"shelve")) ++ z) := by
  simp [shelfKey]

/-- What follows the token. -/
theorem digits_differ {n m : Nat} {w w' r r' : Str} (h : natStr n ++ ':' :: (w ++ r) = natStr m ++ ':' :: (w' ++ r')) :
    n = m ∧ w ++ r = w' ++ r' := by
  have := colon_inj h (natStr_no_colon n) (natStr_no_colon m)
  exact ⟨natStr_inj this.1, this.2⟩

/-! ## Texts set aside -/

theorem replaceStr_skip' {k v : Str} {w r : Str} (h : ∀ u y t, w = u ++ y :: t → ¬ k <+: y :: t ++ r) :
    replaceStr k v (w ++ r) = w ++ replaceStr k v r := replaceStr_skip h

theorem not_key_prefix {uid t : Str} {n : Nat} (h : ¬ uid <+: t) : ¬ shelfKey uid n <+: t := by
  intro h'
  apply h
  refine List.IsPrefix.trans ?_ h'
  exact ⟨natStr n ++ t!":shelve", by simp [shelfKey]⟩

theorem replace_glyph {base : Str} (hb : Spec.PlainBase base) {r v : Str} {m : Nat} (hr : Coloned r) :
    replaceStr (shelfKey (uidOf base) m) v ('>' :: (uidOf base ++ (t!":glyph:" ++ r))) =
      '>' :: (uidOf base ++ (t!":glyph:" ++ replaceStr (shelfKey (uidOf base) m) v r)) := by
  rw [glyph_form, glyph_form]
  apply replaceStr_skip
  intro u y t e
  by_cases hu : u = ['>']
  · subst hu
    rw [List.append_cancel_left_eq] at e
    rintro ⟨x, hx⟩
    rw [← e] at hx
    simp only [shelfKey, List.append_assoc, List.append_cancel_left_eq, List.cons_append, List.nil_append] at hx
    obtain ⟨d, ds, hd⟩ := natStr_cons m
    have hd' := natStr_alnum (n := m) (c := d) (by rw [hd]; simp)
    rw [hd] at hx
    simp only [List.cons_append, List.cons.injEq] at hx
    rw [hx.1] at hd'
    exact absurd hd' (by decide)
  · exact not_key_prefix (skips_glyph hb hr e hu)

/-- Putting back one text. -/
theorem RepK.replace {base : Str} (hb : Spec.PlainBase base) {σ : PState} {d : Nat} {P : Nat → Prop} {r h : Str}
    (hr : RepK (uidOf base) σ d P r h) {m : Nat} {vm : Str} (hm : alLookup (shelfKey (uidOf base) m) σ.shelf = some vm) :
    RepK (uidOf base) σ d (fun n => P n ∧ n ≠ m) (replaceStr (shelfKey (uidOf base) m) vm r) h := by
  have tok : ∀ {a z w r : Str} {n : Nat}, ':' ∉ a → ':' ∉ z → 't' ∉ w → Coloned r →
      (∀ x x', n = m → w ++ x ≠ t!"shelve" ++ x') →
      replaceStr (shelfKey (uidOf base) m) vm ((a ++ ((uidOf base ++ (natStr n ++ ':' :: w)) ++ z)) ++ r) =
        (a ++ ((uidOf base ++ (natStr n ++ ':' :: w)) ++ z)) ++ replaceStr (shelfKey (uidOf base) m) vm r := by
    intro a z w r n ha hz hw hr hne
    apply replaceStr_skip
    intro u y t e
    by_cases hu : u = a
    · subst hu
      rw [List.append_cancel_left_eq] at e
      rintro ⟨x, hx⟩
      rw [← e] at hx
      simp only [shelfKey, List.append_assoc, List.append_cancel_left_eq, List.cons_append] at hx
      have hx' : natStr m ++ ':' :: (t!"shelve" ++ x) = natStr n ++ ':' :: (w ++ (z ++ r)) := by simpa using hx
      have := digits_differ hx'
      exact hne (z ++ r) x this.1.symm this.2.symm
    · exact not_key_prefix (skips_token hb ha hz hw hr e hu)
  induction hr with
  | nil => rw [replaceStr_nil key_ne]; exact .nil
  | @char d P c r h hc hr ih =>
    rw [replaceStr_miss]
    · exact .char hc ih
    · rw [Bool.eq_false_iff]
      intro hp
      exact not_key_prefix hr.colon.no_uid (List.isPrefixOf_iff_prefix.1 hp)
  | @chunk d P w r h hw hr ih =>
    rw [replaceStr_skip]
    · exact .chunk hw ih
    · intro u y t e
      exact not_key_prefix (hw.no_uid hb e)
  | @opening d P n o r h h1 h2 h3 hr ih =>
    rw [ospan_form, tok (by simp) (by simp) (by decide) hr.colon (by intro x x' _; simp), ← ospan_form]
    exact .opening h1 h2 h3 ih
  | @closing d P n o r h h1 h2 h3 hr ih =>
    rw [cspan_form, tok (by decide) (by simp) (by decide) hr.colon (by intro x x' _; simp), ← cspan_form]
    exact .closing h1 h2 h3 ih
  | @url d P n o r h h1 h2 hr ih =>
    rw [url_form', tok (by decide) (by simp) (by decide) hr.colon (by intro x x' _; simp), ← url_form']
    exact .url h1 h2 ih
  | @glyph d P r h hr ih =>
    rw [replace_glyph hb hr.colon]
    exact .glyph ih
  | @key d e P n a v z m' r h h1 h2 h3 h4 h5 h6 hr ih6 ih =>
    by_cases hn : n = m
    · subst hn
      obtain rfl : v = vm := by rw [h3] at hm; simpa using hm
      have e1 : replaceStr (shelfKey (uidOf base) n) v (a ++ (shelfKey (uidOf base) n ++ (z ++ r))) =
          a ++ (v ++ (z ++ replaceStr (shelfKey (uidOf base) n) v r)) := by
        rw [replaceStr_skip, replaceStr_hit key_ne, replaceStr_skip]
        · intro u y t e
          refine not_key_prefix (Coloned.no_uid (t := t ++ r) (.append ?_ hr.colon))
          intro h; apply h5; rw [e]; simp [h]
        · intro u y t e
          refine not_key_prefix (Coloned.no_uid (t := t ++ (shelfKey (uidOf base) n ++ (z ++ r))) (.append ?_ ?_))
          · intro h; apply h4; rw [e]; simp [h]
          · rw [key_eq]; exact Coloned.ref
      rw [e1, show a ++ (v ++ (z ++ replaceStr (shelfKey (uidOf base) n) v r)) =
        (a ++ (v ++ z)) ++ replaceStr (shelfKey (uidOf base) n) v r by simp]
      exact (h6.lift (by omega) (fun e _ => by omega)).append ih
    · have := tok (a := a) (z := z) (w := t!"shelve") (n := n) h4 h5 (by decide) hr.colon (fun x x' e => absurd e hn)
      rw [← key_form] at this
      rw [show a ++ (shelfKey (uidOf base) n ++ (z ++ r)) = (a ++ (shelfKey (uidOf base) n ++ z)) ++ r by simp, this,
        show ∀ q, (a ++ (shelfKey (uidOf base) n ++ z)) ++ q = a ++ (shelfKey (uidOf base) n ++ (z ++ q)) by simp]
      exact .key h1 (fun e => ⟨h2 e, hn⟩) h3 h4 h5 h6 ih

/-- The texts set aside are found under their placeholders. -/
def ShelfOk (uid : Str) (sh : List (Str × Str)) : Prop := ∀ e ∈ sh, ∃ n, e.1 = shelfKey uid n ∧ alLookup e.1 sh = some e.2

theorem alLookup_mem {α β : Type} [DecidableEq α] {k : α} {v : β} : ∀ {l : List (α × β)}, alLookup k l = some v → (k, v) ∈ l
  | (a, b) :: l, h => by
    rw [alLookup] at h
    split at h
    · rename_i e; simp only [Option.some.injEq] at h; rw [e, h]; simp
    · exact List.mem_cons_of_mem _ (alLookup_mem h)

theorem RepK.fold {base : Str} (hb : Spec.PlainBase base) {σ : PState} {d : Nat} : ∀ {sh : List (Str × Str)} {P : Nat → Prop} {r h : Str},
    (∀ e ∈ sh, ∃ n, e.1 = shelfKey (uidOf base) n ∧ alLookup e.1 σ.shelf = some e.2) → RepK (uidOf base) σ d P r h →
    RepK (uidOf base) σ d (fun n => P n ∧ ∀ e ∈ sh, e.1 ≠ shelfKey (uidOf base) n) (retrieveRound sh r) h
  | [], P, r, h, _, hr => hr.lift (Nat.le_refl _) (fun _ n hn => ⟨hn, by simp⟩)
  | (k, v) :: sh, P, r, h, hs, hr => by
    obtain ⟨n, hn, hl⟩ := hs (k, v) (by simp)
    simp only at hn hl
    subst hn
    rw [retrieveRound_cons]
    refine (RepK.fold hb (fun e he => hs e (List.mem_cons_of_mem _ he)) (hr.replace hb hl)).lift (Nat.le_refl _) ?_
    rintro - m ⟨⟨h1, h2⟩, h3⟩
    refine ⟨h1, ?_⟩
    intro e he
    rcases List.mem_cons.1 he with rfl | he
    · intro e'; exact h2 (shelfKey_inj e').symm
    · exact h3 e he

theorem RepK.drop {base : Str} {σ : PState} {d : Nat} {Q : Nat → Prop} {r h : Str} (hr : RepK (uidOf base) σ d Q r h)
    (hQ : ∀ n, Q n → ∀ e ∈ σ.shelf, e.1 ≠ shelfKey (uidOf base) n) : RepK (uidOf base) σ (d - 1) (fun _ => True) r h := by
  induction hr with
  | nil => exact .nil
  | char hc _ ih => exact .char hc (ih hQ)
  | chunk hw _ ih => exact .chunk hw (ih hQ)
  | opening h1 h2 h3 _ ih => exact .opening h1 h2 h3 (ih hQ)
  | closing h1 h2 h3 _ ih => exact .closing h1 h2 h3 (ih hQ)
  | url h1 h2 _ ih => exact .url h1 h2 (ih hQ)
  | glyph _ ih => exact .glyph (ih hQ)
  | @key d e P n a v z m r h g1 g2 g3 g4 g5 g6 _ _ ih =>
    refine .key ?_ (fun _ => trivial) g3 g4 g5 g6 (ih hQ)
    by_cases he : e + 1 = d
    · exact absurd rfl (hQ n (g2 he) _ (alLookup_mem g3))
    · omega

/-- One round puts back the outermost texts. -/
theorem RepK.round {base : Str} (hb : Spec.PlainBase base) {σ : PState} (hs : ShelfOk (uidOf base) σ.shelf) {d : Nat} {P : Nat → Prop}
    {r h : Str} (hr : RepK (uidOf base) σ d P r h) : RepK (uidOf base) σ (d - 1) (fun _ => True) (retrieveRound σ.shelf r) h :=
  (RepK.fold hb (sh := σ.shelf) hs hr).drop (fun _ hn => hn.2)

/-- All texts are put back. -/
theorem RepK.retrieve {base : Str} (hb : Spec.PlainBase base) {σ : PState} (hs : ShelfOk (uidOf base) σ.shelf) :
    ∀ {d : Nat} {P : Nat → Prop} {r h : Str}, RepK (uidOf base) σ d P r h → ∀ {f : Nat}, d + 1 ≤ f →
      ∃ t, Rustextile.retrieve σ.shelf f r = .ok t ∧ RepK (uidOf base) σ 0 (fun _ => True) t h
  | d, P, r, h, hr, 0, hf => by omega
  | d, P, r, h, hr, f + 1, hf => by
    have h1 := hr.round hb hs
    rw [Rustextile.retrieve]
    split
    · rename_i e
      refine ⟨_, rfl, ?_⟩
      -- a text that a round leaves as it is
      have fix : ∀ k {d : Nat}, d ≤ k → RepK (uidOf base) σ d (fun _ => True) (retrieveRound σ.shelf r) h →
          RepK (uidOf base) σ 0 (fun _ => True) (retrieveRound σ.shelf r) h := by
        intro k
        induction k with
        | zero => intro d hd h'; obtain rfl : d = 0 := by omega
                  exact h'
        | succ k ih =>
          intro d hd h'
          have := h'.round hb hs
          rw [e, e] at this
          rw [e] at ih ⊢
          exact ih (d := d - 1) (by omega) this
      exact fix _ (Nat.le_refl _) h1
    · rename_i e
      cases d with
      | zero =>
        exfalso; apply e
        have clean : ∀ {d : Nat} {P : Nat → Prop} {r h : Str}, RepK (uidOf base) σ d P r h → d = 0 → ∀ {m : Nat} {vm : Str},
            replaceStr (shelfKey (uidOf base) m) vm r = r := by
          intro d P r h hr
          have tok : ∀ {a z w r vm : Str} {n m : Nat}, ':' ∉ a → ':' ∉ z → 't' ∉ w → Coloned r →
              (∀ x x', w ++ x ≠ t!"shelve" ++ x') →
              replaceStr (shelfKey (uidOf base) m) vm ((a ++ ((uidOf base ++ (natStr n ++ ':' :: w)) ++ z)) ++ r) =
                (a ++ ((uidOf base ++ (natStr n ++ ':' :: w)) ++ z)) ++ replaceStr (shelfKey (uidOf base) m) vm r := by
            intro a z w r vm n m ha hz hw hr hne
            apply replaceStr_skip
            intro u y t e
            by_cases hu : u = a
            · subst hu
              rw [List.append_cancel_left_eq] at e
              rintro ⟨x, hx⟩
              rw [← e] at hx
              simp only [shelfKey, List.append_assoc, List.append_cancel_left_eq, List.cons_append] at hx
              have hx' : natStr m ++ ':' :: (t!"shelve" ++ x) = natStr n ++ ':' :: (w ++ (z ++ r)) := by simpa using hx
              have := digits_differ hx'
              exact hne (z ++ r) x this.2.symm
            · exact not_key_prefix (skips_token hb ha hz hw hr e hu)
          induction hr with
          | nil => intros; rw [replaceStr_nil key_ne]
          | @char d P c r h hc hr ih =>
            intro hd m vm
            rw [replaceStr_miss, ih hd]
            rw [Bool.eq_false_iff]
            intro hp
            exact not_key_prefix hr.colon.no_uid (List.isPrefixOf_iff_prefix.1 hp)
          | @chunk d P w r h hw hr ih =>
            intro hd m vm
            rw [replaceStr_skip, ih hd]
            intro u y t e
            exact not_key_prefix (hw.no_uid hb e)
          | @opening d P n o r h h1 h2 h3 hr ih =>
            intro hd m vm
            rw [ospan_form, tok (by simp) (by simp) (by decide) hr.colon (by intro x x'; simp), ih hd]
          | @closing d P n o r h h1 h2 h3 hr ih =>
            intro hd m vm
            rw [cspan_form, tok (by decide) (by simp) (by decide) hr.colon (by intro x x'; simp), ih hd]
          | @url d P n o r h h1 h2 hr ih =>
            intro hd m vm
            rw [url_form', tok (by decide) (by simp) (by decide) hr.colon (by intro x x'; simp), ih hd]
          | @glyph d P r h hr ih =>
            intro hd m vm
            rw [replace_glyph hb hr.colon, ih hd]
          | key h1 => intro hd; omega
        have round : ∀ {sh : List (Str × Str)}, (∀ e ∈ sh, ∃ n, e.1 = shelfKey (uidOf base) n ∧ alLookup e.1 σ.shelf = some e.2) →
            retrieveRound sh r = r := by
          intro sh
          induction sh with
          | nil => intro _; rfl
          | cons p sh ih =>
            intro hs
            obtain ⟨n, hn, -⟩ := hs p (by simp)
            obtain ⟨k, v⟩ := p
            simp only at hn
            subst hn
            rw [retrieveRound_cons, clean hr rfl]
            exact ih (fun e he => hs e (List.mem_cons_of_mem _ he))
        exact round hs
      | succ d => exact RepK.retrieve hb hs h1 (by omega)

/-! ## Two passes -/

theorem RepC.text {uid : Str} {σ : PState} {r h : Str} (hr : RepC uid σ r h) : ∀ {w : Str}, ':' ∉ w → RepC uid σ (w ++ r) (w ++ h)
  | [], _ => hr
  | c :: w, hw => by
    simp at hw
    exact .char (fun e => hw.1 e.symm) (hr.text hw.2)

theorem RepC.colon {base : Str} {σ : PState} {r h x y : Str} (hr : RepC (uidOf base) σ r h) (e : r = x ++ ':' :: y) (hx : ':' ∉ x) :
    (∃ p, x = p ++ ' ' :: refWord) ∨ ∃ c ∈ x, Sep c := by
  induction hr generalizing x with
  | nil => simp at e
  | @char c r h hc _ ih =>
    cases x with
    | nil => simp at e; exact absurd e.1 hc
    | cons a x =>
      simp at e hx
      rcases ih e.2 hx.2 with ⟨p, hp⟩ | ⟨d, hd, hd'⟩
      · exact .inl ⟨a :: p, by rw [hp]; rfl⟩
      · exact .inr ⟨d, List.mem_cons_of_mem _ hd, hd'⟩
  | @chunk w r h hw _ ih =>
    obtain ⟨c, m, e', hc⟩ := hw.first
    cases x with
    | nil => rw [e'] at e; simp at e; rw [e.1] at hc; exact absurd hc (by decide)
    | cons a x => rw [e'] at e; simp at e; exact .inr ⟨a, by simp, by rw [← e.1]; exact hc⟩
  | closing _ _ _ _ ih =>
    rw [cspan_eq] at e
    have e' : (' ' :: refWord) ++ ':' :: _ = x ++ ':' :: y := e
    exact .inl ⟨[], (colon_inj e' (by decide) hx).1.symm⟩
  | url _ _ _ ih =>
    cases x with
    | nil => simp at e
    | cons a x => simp at e; exact .inr ⟨a, by simp, by rw [← e.1]; decide⟩

theorem RepC.no_ref {base : Str} {σ : PState} {r h : Str} (hr : RepC (uidOf base) σ r h) : ¬ uidOf base <+: r := by
  intro hp
  obtain ⟨y, e⟩ := prefix_ref hp
  rcases hr.colon e (by decide) with ⟨p, hp⟩ | ⟨d, hd, hd'⟩
  · have := congrArg List.length hp
    simp [refWord] at this
  · have s : ∀ x ∈ refWord, ¬ Sep x := by decide
    exact s d hd hd'

theorem RepC.no_uid {base : Str} {σ : PState} {c : Char} {r h : Str} (hr : RepC (uidOf base) σ r h) :
    ¬ (' ' :: uidOf base) <+: c :: r := by
  intro hp
  rw [List.cons_prefix_cons] at hp
  exact hr.no_ref hp.2

theorem RepO.colon {base : Str} {σ : PState} {r h : Str} (hr : RepO (uidOf base) σ r h) : Coloned r := by
  induction hr with
  | nil => exact .nil
  | char hc _ ih => exact .cons hc ih
  | chunk hw _ ih => exact hw.colon
  | opening _ _ _ _ ih => rw [ospan_eq]; exact Coloned.ref
  | closing _ _ _ _ ih => rw [cspan_eq]; exact .cons (by decide) (Coloned.ref)
  | url _ _ _ ih => exact .sep (by decide)

/-- The placeholders of opening tags. -/
theorem RepO.first {C : Ctx} {base : Str} (hb : Spec.PlainBase base) {σ : PState} {r h : Str}
    (hr : RepO (uidOf base) σ r h) : ∀ pre, ∃ r', ScanP C (.seq (Re.lit (uidOf base)) OSPAN_TOKEN_TAIL) (tagOf σ) pre r σ r' σ ∧
      RepC (uidOf base) σ r' h := by
  induction hr with
  | nil => intro pre; exact ⟨[], .nil, .nil⟩
  | @char c r h hc hr ih =>
    intro pre
    obtain ⟨r', h1, h2⟩ := ih (c :: pre)
    exact ⟨c :: r', .miss (seq_lit_none (hr.colon.no_uid)) h1, .char hc h2⟩
  | @chunk w r h hw hr ih =>
    intro pre
    obtain ⟨r', h1, h2⟩ := ih (w.reverse ++ pre)
    exact ⟨w ++ r', ScanP.of_skips (fun u y v e => seq_lit_none (hw.no_uid hb e)) h1, .chunk hw h2⟩
  | @opening n o r h hn hl ho hr ih =>
    intro pre
    obtain ⟨r', h1, h2⟩ := ih ((ospan (uidOf base) n).reverse ++ pre)
    refine ⟨o ++ r', ?_, .chunk ho h2⟩
    refine .hit (s := [(1, natStr n)]) ?_ (by simp [ospan, uidOf]) (fun gap => runs_tagOf hn hl _ gap) h1
    rw [OSPAN_shape]
    have := tail_hit (U := C.U) (k := uidOf base) (w := t!":ospan ") rfl pre r n
    simpa [ospan] using this
  | @closing n o r h hn hl ho hr ih =>
    intro pre
    obtain ⟨r', h1, h2⟩ := ih ((cspan (uidOf base) n).reverse ++ pre)
    refine ⟨cspan (uidOf base) n ++ r', ScanP.of_skips ?_ h1, .closing hn hl ho h2⟩
    intro u y v e
    by_cases hu : u = t!" "
    · subst hu
      rw [cspan_form, List.append_cancel_left_eq] at e
      rw [OSPAN_shape]
      have := tail_other (U := C.U) (k := uidOf base) (w := t!"ospan ") (w' := t!"cspan") (by intro r r'; simp)
        (t!" ".reverse ++ pre) r n
      rw [← this]
      congr 2
      rw [← e]
      simp
    · rw [cspan_form] at e
      exact seq_lit_none (skips_token hb (by decide) (by simp) (by decide) hr.colon e hu)
  | @url n o r h hn hl hr ih =>
    intro pre
    obtain ⟨r', h1, h2⟩ := ih (('"' :: urlTok (uidOf base) n).reverse ++ pre)
    refine ⟨'"' :: (urlTok (uidOf base) n ++ r'), ?_, .url hn hl h2⟩
    refine ScanP.of_skips (w := '"' :: urlTok (uidOf base) n) ?_ h1
    intro u y v e
    by_cases hu : u = ['"']
    · subst hu
      rw [url_form, List.append_cancel_left_eq] at e
      rw [OSPAN_shape]
      have := tail_other (U := C.U) (k := uidOf base) (w := t!"ospan ") (w' := t!"url") (by intro r r'; simp)
        (['"'].reverse ++ pre) r n
      rw [← this]
      congr 2
      rw [← e]
      simp
    · rw [url_form] at e
      exact seq_lit_none (skips_token hb (by decide) (by simp) (by decide) hr.colon e hu)

theorem url_nospace {base : Str} (hb : Spec.PlainBase base) (n : Nat) : ' ' ∉ '"' :: urlTok (uidOf base) n := by
  have h1 := sep_uid hb (c := ' ') (by decide)
  have h2 : ' ' ∉ natStr n := by intro h'; have := natStr_alnum h'; revert this; decide
  simp [urlTok, h1, h2]

/-- The placeholders of closing tags. -/
theorem RepC.second {C : Ctx} {base : Str} (hb : Spec.PlainBase base) {σ : PState} {r h : Str} (hr : RepC (uidOf base) σ r h) :
    ∀ pre, ∃ r', ScanP C (.seq (Re.lit (' ' :: uidOf base)) CSPAN_TOKEN_TAIL) (tagOf σ) pre r σ r' σ ∧ RepU (uidOf base) σ r' h := by
  induction hr with
  | nil => intro pre; exact ⟨[], .nil, .nil⟩
  | @char c r h hc hr ih =>
    intro pre
    obtain ⟨r', h1, h2⟩ := ih (c :: pre)
    exact ⟨c :: r', .miss (seq_lit_none (hr.no_uid)) h1, .char hc h2⟩
  | @chunk w r h hw hr ih =>
    intro pre
    obtain ⟨r', h1, h2⟩ := ih (w.reverse ++ pre)
    refine ⟨w ++ r', ScanP.of_skips (fun u y v e => seq_lit_none ?_) h1, .chunk hw h2⟩
    cases v with
    | nil => exact hr.no_uid
    | cons y' v =>
      intro hp
      rw [List.cons_append, List.cons_prefix_cons] at hp
      exact hw.no_uid hb (u := u ++ [y]) (by rw [e]; simp) hp.2
  | @closing n o r h hn hl ho hr ih =>
    intro pre
    obtain ⟨r', h1, h2⟩ := ih ((cspan (uidOf base) n).reverse ++ pre)
    refine ⟨o ++ r', .hit (s := [(1, natStr n)]) ?_ (by simp [cspan]) (fun gap => runs_tagOf hn hl _ gap) h1, .chunk ho h2⟩
    rw [CSPAN_shape]
    have := tail_hit (U := C.U) (k := ' ' :: uidOf base) (w := t!":cspan") rfl pre r n
    simpa [cspan] using this
  | @url n o r h hn hl hr ih =>
    intro pre
    obtain ⟨r', h1, h2⟩ := ih (('"' :: urlTok (uidOf base) n).reverse ++ pre)
    refine ⟨'"' :: (urlTok (uidOf base) n ++ r'), ScanP.of_skips (w := '"' :: urlTok (uidOf base) n) ?_ h1, .url hn hl h2⟩
    intro u y v e
    refine seq_lit_none ?_
    intro hp
    rw [List.cons_append, List.cons_prefix_cons] at hp
    exact url_nospace hb n (by rw [e, ← hp.1]; simp)

theorem RepU.colon {base : Str} {σ : PState} {r h : Str} (hr : RepU (uidOf base) σ r h) : Coloned r := by
  induction hr with
  | nil => exact .nil
  | char hc _ ih => exact .cons hc ih
  | chunk hw _ ih => exact hw.colon
  | url _ _ _ ih => exact .sep (by decide)

/-- The address for a placeholder. -/
theorem fRetrieveUrl_eq {C : Ctx} {σ : PState} (hu : σ.aux.urlrefs = []) {n : Nat} {o : Str} (hn : n < 2 ^ 32)
    (h : alLookup n σ.refCache = some o) (w gap : Str) : fRetrieveUrl C σ ⟨gap, w, [(1, natStr n)]⟩ = o := by
  unfold fRetrieveUrl
  simp only [Mat.grp, Mat.get?, alLookup]
  rw [if_neg (by decide), if_pos trivial, Option.getD_some, parseU32_natStr hn]
  simp only [h, Option.getD_some, hu, alLookup]
  split <;> rfl

/-- The placeholders of addresses. -/
theorem RepU.third {C : Ctx} {base : Str} (hb : Spec.PlainBase base) {σ : PState} (hu : σ.aux.urlrefs = []) {r h : Str}
    (hr : RepU (uidOf base) σ r h) : ∀ pre, Scan C.U (.seq (Re.lit (uidOf base)) URL_TOKEN_TAIL)
      (fun w s => fRetrieveUrl C σ ⟨[], w, s⟩) pre r h := by
  induction hr with
  | nil => intro pre; exact .nil
  | @char c r h hc hr ih => intro pre; exact .miss (seq_lit_none (hr.colon.no_uid)) (ih _)
  | @chunk w r h hw hr ih => intro pre; exact Scan.of_skips (fun u y v e => seq_lit_none (hw.no_uid hb e)) (ih _)
  | @url n o r h hn hl hr ih =>
    intro pre
    refine .miss (seq_lit_none ?_) ?_
    · intro hp
      obtain ⟨y, e⟩ := prefix_ref hp
      simp [refWord] at e
    · have := Scan.hit (g := fun w s => fRetrieveUrl C σ ⟨[], w, s⟩) (U := C.U) (s := [(1, natStr n)]) (rest := r)
        (r := .seq (Re.lit (uidOf base)) URL_TOKEN_TAIL) (pre := '"' :: pre) (w := urlTok (uidOf base) n) (by
          rw [URL_shape]
          have := tail_hit (U := C.U) (k := uidOf base) (w := t!":url") rfl ('"' :: pre) r n
          simpa [urlTok] using this) (by simp [urlTok, uidOf]) (ih _)
      rw [fRetrieveUrl_eq hu hn hl] at this
      exact this

theorem ofR_bind {α β : Type} (x : R α) (f : α → R β) : ofR (x >>= f) = (ofR x >>= fun a => ofR (f a)) := by
  cases x <;> rfl

theorem ofR_mapSegs (f : Mat → R Str) : ∀ ms, ofR (mapSegs f ms) = mapSegs (fun m => ofR (f m)) ms
  | [] => rfl
  | m :: ms => by
    rw [mapSegs, mapSegs, ofR_bind]
    congr 1
    funext a
    rw [ofR_bind, ofR_mapSegs f ms]
    rfl

theorem ofR_replaceAllM {U : Uni} {r : Re} {f : Mat → R Str} {t : Str} :
    ofR (r.replaceAllM U f t) = r.replaceAllM U (fun m => ofR (f m)) t := by
  unfold Re.replaceAllM
  simp only
  rw [ofR_bind, ofR_mapSegs]
  rfl

theorem tail_nonnull {k w : Str} : (Re.seq (Re.lit k) (tailRe w)).nonnull = true := by
  simp [tailRe, Re.nonnull]

/-- The marks before capitals are removed. -/
theorem RepK.strip {base : Str} (hb : Spec.PlainBase base) {σ : PState} {d : Nat} {P : Nat → Prop} {r h : Str}
    (hr : RepK (uidOf base) σ d P r h) (hd : d = 0) : RepO (uidOf base) σ (replaceStr (uidOf base ++ t!":glyph:") [] r) h := by
  have sub : ∀ {t : Str}, ¬ uidOf base <+: t → ¬ (uidOf base ++ t!":glyph:") <+: t :=
    fun h h' => h ((List.prefix_append _ _).trans h')
  have hne : uidOf base ++ t!":glyph:" ≠ [] := by simp [uidOf]
  have tok : ∀ {a z w r : Str} {n : Nat}, ':' ∉ a → ':' ∉ z → 't' ∉ w → Coloned r →
      replaceStr (uidOf base ++ t!":glyph:") [] ((a ++ ((uidOf base ++ (natStr n ++ ':' :: w)) ++ z)) ++ r) =
        (a ++ ((uidOf base ++ (natStr n ++ ':' :: w)) ++ z)) ++ replaceStr (uidOf base ++ t!":glyph:") [] r := by
    intro a z w r n ha hz hw hr
    apply replaceStr_skip
    intro u y t e
    by_cases hu : u = a
    · subst hu
      rw [List.append_cancel_left_eq] at e
      rintro ⟨x, hx⟩
      rw [← e] at hx
      simp only [List.append_assoc, List.append_cancel_left_eq, List.cons_append] at hx
      obtain ⟨d, ds, hd⟩ := natStr_cons n
      rw [hd] at hx
      have hd' := natStr_alnum (n := n) (c := d) (by rw [hd]; simp)
      simp at hx
      rw [← hx.1] at hd'
      revert hd'; decide
    · exact sub (skips_token hb ha hz hw hr e hu)
  induction hr with
  | nil => rw [replaceStr_nil hne]; exact .nil
  | @char d P c r h hc hr ih =>
    rw [replaceStr_miss]
    · exact .char hc (ih hd)
    · rw [Bool.eq_false_iff]
      intro hp
      exact sub hr.colon.no_uid (List.isPrefixOf_iff_prefix.1 hp)
  | @chunk d P w r h hw hr ih =>
    rw [replaceStr_skip]
    · exact .chunk hw (ih hd)
    · intro u y t e
      exact sub (hw.no_uid hb e)
  | @opening d P n o r h h1 h2 h3 hr ih =>
    rw [ospan_form, tok (by simp) (by simp) (by decide) hr.colon, ← ospan_form]
    exact .opening h1 h2 h3 (ih hd)
  | @closing d P n o r h h1 h2 h3 hr ih =>
    rw [cspan_form, tok (by decide) (by simp) (by decide) hr.colon, ← cspan_form]
    exact .closing h1 h2 h3 (ih hd)
  | @url d P n o r h h1 h2 hr ih =>
    rw [url_form', tok (by decide) (by simp) (by decide) hr.colon, ← url_form']
    exact .url h1 h2 (ih hd)
  | @glyph d P r h hr ih =>
    rw [replaceStr_miss, ← List.append_assoc, replaceStr_hit hne]
    · exact .char (by decide) (ih hd)
    · rw [Bool.eq_false_iff]
      intro hp
      obtain ⟨y, e⟩ := prefix_ref ((List.prefix_append _ _).trans (List.isPrefixOf_iff_prefix.1 hp))
      simp [refWord] at e
  | key h1 => omega

/-- A text with placeholders, and the text with all of them put back; texts set aside have no placeholders of such texts. -/
def Rep (uid : Str) (σ : PState) (r h : Str) : Prop := RepK uid σ 2 (fun _ => True) r h

theorem Rep.nil {uid : Str} {σ : PState} : Rep uid σ [] [] := RepK.nil

theorem Rep.text {uid : Str} {σ : PState} {r h w : Str} (hr : Rep uid σ r h) (hw : ':' ∉ w) : Rep uid σ (w ++ r) (w ++ h) :=
  RepK.text hr hw

theorem Rep.append {uid : Str} {σ : PState} {r h r' h' : Str} (hr : Rep uid σ r h) (hr' : Rep uid σ r' h') :
    Rep uid σ (r ++ r') (h ++ h') := RepK.append hr hr'

/-- A text set aside that has no placeholders. -/
theorem Rep.key {uid : Str} {σ : PState} {n : Nat} {v r h : Str} (hl : alLookup (shelfKey uid n) σ.shelf = some v)
    (hv : Sealed uid v) (hr : Rep uid σ r h) : Rep uid σ (shelfKey uid n ++ r) (v ++ h) := by
  have h6 : RepK uid σ 0 (fun _ => True) ([] ++ (v ++ [])) v := by
    have := RepK.chunk (d := 0) (P := fun _ => True) (σ := σ) hv .nil
    simpa using this
  exact RepK.key (a := []) (z := []) (d := 2) (e := 0) (by omega) (fun _ => trivial) hl (by simp) (by simp) h6 hr

/-- The end of the conversion of a text with placeholders. -/
theorem runs_tags {C : Ctx} {base : Str} (D : DocCtx C base) {σ : PState} (hs : ShelfOk C.cfg.uid σ.shelf) (hu : σ.aux.urlrefs = []) {r h : Str}
    (hr : Rep C.cfg.uid σ r h) : Runs C (restProg C r) h σ σ := by
  unfold restProg
  rw [D.uid] at hr hs
  refine (runs_getSt σ).bind ?_
  obtain ⟨t, h1, h2⟩ := RepK.retrieve D.plain hs hr (f := C.fuel) D.fuel
  rw [h1]
  refine (runs_ofR t σ).bind ?_
  have h3 := h2.strip D.plain rfl
  rw [D.uid]
  generalize replaceStr (uidOf base ++ t!":glyph:") [] t = t' at h3 ⊢
  obtain ⟨r', g1, g2⟩ := h3.first (C := C) D.plain []
  obtain ⟨r'', g3, g4⟩ := g2.second (C := C) D.plain []
  have g5 := g4.third (C := C) D.plain hu []
  refine Runs.bind (a := r'') (σ' := σ) ?_ ?_
  · unfold retrieveTags
    refine (runs_getSt σ).bind ((runs_getPat .ospan σ).bind ?_)
    rw [show mkPat C.cfg.uid .ospan = .seq (.lit C.cfg.uid) OSPAN_TOKEN_TAIL from rfl, ofR_replaceAllM, D.uid]
    refine Runs.bind (a := r') (σ' := σ) (ScanP.runs ?_ ?_ g1) ((runs_getPat .cspan σ).bind ?_)
    · rw [OSPAN_shape]; exact tail_nonnull
    · intro m; rfl
    rw [show mkPat C.cfg.uid .cspan = .seq (.lit (' ' :: C.cfg.uid)) CSPAN_TOKEN_TAIL from rfl, ofR_replaceAllM, D.uid]
    refine ScanP.runs ?_ ?_ g3
    · rw [CSPAN_shape]; exact tail_nonnull
    · intro m; rfl
  · unfold retrieveUrls
    refine (runs_getPat .urls σ).bind ((runs_getSt σ).bind ?_)
    rw [show mkPat C.cfg.uid .urls = .seq (.lit C.cfg.uid) URL_TOKEN_TAIL from rfl, D.uid]
    rw [Re.replaceAll_eq (f := fRetrieveUrl C σ) (by rw [URL_shape]; exact tail_nonnull) (fun m => rfl) g5]
    exact Runs.pure _ _

end Rustextile
