import Verif.SignRe

/-!
# The stages of the replacement of signs

`form k s` is what stands for the sign `s` before the pattern number `k` is applied.
-/

namespace Rustextile

/-- The number of the pattern that replaces the sign. -/
def signStage : Spec.Sign → Nat
  | .ampersand => 0
  | .apostrophe => 2
  | .decade _ => 3
  | .closeSingle => 5
  | .openSingle => 6
  | .closeDouble => 8
  | .openDouble => 9
  | .ellipsis => 10
  | .emDash => 12
  | .enDash => 13
  | .mark _ _ .trademark => 14
  | .mark _ _ .registered => 15
  | .mark _ _ .copyright => 16
  | .mark _ _ .half => 17
  | .mark _ _ .quarter => 18
  | .mark _ _ .threeQuarters => 19
  | .mark _ _ .degree => 20
  | .mark _ _ .plusMinus => 21
  | .entity _ => 100

def form (k : Nat) (s : Spec.Sign) : Str := if signStage s < k then s.html else s.source

def formText (k : Nat) (ps : List (Spec.Sign × Str)) : Str := ps.flatMap (fun p => form k p.1 ++ p.2)

theorem formText_cons (k : Nat) (s : Spec.Sign) (v : Str) (ps : List (Spec.Sign × Str)) :
    formText k ((s, v) :: ps) = form k s ++ (v ++ formText k ps) := by simp [formText]

theorem form_succ {k : Nat} {s : Spec.Sign} (h : signStage s ≠ k) : form (k + 1) s = form k s := by
  unfold form
  by_cases h1 : signStage s < k
  · rw [if_pos h1, if_pos (by omega)]
  · rw [if_neg h1, if_neg (by omega)]

theorem form_now {k : Nat} {s : Spec.Sign} (h : signStage s = k) : form k s = s.source ∧ form (k + 1) s = s.html := by
  unfold form
  exact ⟨if_neg (by omega), if_pos (by omega)⟩

/-- What is known at a position of the text: the rest of a word and the signs after it. -/
structure SgBase (U : Uni) (pre w : Str) (ps : List (Spec.Sign × Str)) : Prop where
  word : Spec.Prose U.isLu w
  texts : ∀ p ∈ ps, Spec.Prose U.isLu p.2
  fit : Spec.AllFit (w.reverse ++ pre).head? ps

theorem Prose.tail {up : Char → Bool} {y v : Str} (h : Spec.Prose up (y ++ v)) : Spec.Prose up v where
  chars c hc := h.chars c (by simp [hc])
  caps a x z t b e := h.caps (y ++ a) x z t b (by simp [e])
  dots a b e := h.dots (y ++ a) b (by simp [e])
  dims a d x b h1 h2 := ⟨fun e => (h.dims (y ++ a) d x b h1 h2).1 (by simp [e]), fun e => (h.dims (y ++ a) d x b h1 h2).2 (by simp [e])⟩
  lines a c b e := h.lines (y ++ a) c b (by simp [e])

variable {U : Uni}

theorem SgBase.after {pre w : Str} {s : Spec.Sign} {v : Str} {ps : List (Spec.Sign × Str)} (h : SgBase U pre w ((s, v) :: ps)) : ps ≠ [] → v ≠ [] := h.fit.2.1

theorem SgBase.next {pre w : Str} {s : Spec.Sign} {v : Str} {ps : List (Spec.Sign × Str)} (h : SgBase U pre w ((s, v) :: ps)) : Spec.Prose U.isLu v :=
  h.texts (s, v) (by simp)

theorem SgBase.tail {pre w f y v' : Str} {s : Spec.Sign} {ps : List (Spec.Sign × Str)} (h : SgBase U pre w ((s, y ++ v') :: ps)) :
    SgBase U ((w ++ (f ++ y)).reverse ++ pre) v' ps := by
  refine ⟨Prose.tail h.next, fun p hp => h.texts p (by simp [hp]), ?_⟩
  by_cases hp : ps = []
  · subst hp; trivial
  · have hv := h.after hp
    have := h.fit.2.2
    have e : (v'.reverse ++ ((w ++ (f ++ y)).reverse ++ pre)).head? = (y ++ v').getLast? := by
      rw [← List.head?_reverse]
      have : v'.reverse ++ ((w ++ (f ++ y)).reverse ++ pre) = (y ++ v').reverse ++ (f.reverse ++ (w.reverse ++ pre)) := by simp
      obtain ⟨c, t, hc⟩ := List.exists_cons_of_ne_nil (l := (y ++ v').reverse) (by simpa using fun a b => hv (by simp [a, b]))
      rw [this, hc]; rfl
    rw [e]
    exact this

/-- The scan passes a sign. -/
def Deal (U : Uni) (r : Re) (tm : Str) (k : Nat) (J : Str → Str → List (Spec.Sign × Str) → Prop) (pre w : Str) (s : Spec.Sign) (v : Str)
    (ps : List (Spec.Sign × Str)) : Prop :=
  ∃ y v', v = y ++ v' ∧ J ((w ++ (form k s ++ y)).reverse ++ pre) v' ps ∧
    ∀ out, Scan U r (templ tm) ((w ++ (form k s ++ y)).reverse ++ pre) (v' ++ formText k ps) out →
      Scan U r (templ tm) pre (w ++ (form k s ++ (v ++ formText k ps))) (w ++ (form (k + 1) s ++ (y ++ out)))

theorem scan_signs {r : Re} {tm : Str} {k : Nat} {J : Str → Str → List (Spec.Sign × Str) → Prop}
    (deal : ∀ pre w s v ps, SgBase U pre w ((s, v) :: ps) → J pre w ((s, v) :: ps) → Deal U r tm k J pre w s v ps)
    (done : ∀ pre w, Spec.Prose U.isLu w → Skips U r pre w []) : ∀ (ps : List (Spec.Sign × Str)) (w pre : Str), SgBase U pre w ps → J pre w ps →
      Scan U r (templ tm) pre (w ++ formText k ps) (w ++ formText (k + 1) ps)
  | [], w, pre, h, _ => by
    have := Scan.of_skips (g := templ tm) (done pre w h.word) .nil
    simpa [formText] using this
  | (s, v) :: ps, w, pre, h, hJ => by
    obtain ⟨y, v', rfl, hJ', hs⟩ := deal pre w s v ps h hJ
    have := hs _ (scan_signs deal done ps v' _ h.tail hJ')
    rw [formText_cons, formText_cons]
    simpa using this

theorem deal_skip {r : Re} {tm : Str} {k : Nat} {J : Str → Str → List (Spec.Sign × Str) → Prop} {pre w v : Str} {s : Spec.Sign}
    {ps : List (Spec.Sign × Str)} (hs : signStage s ≠ k) (hJ : J ((w ++ form k s).reverse ++ pre) v ps)
    (h : Skips U r pre (w ++ form k s) (v ++ formText k ps)) : Deal U r tm k J pre w s v ps := by
  refine ⟨[], v, rfl, by simpa using hJ, fun out ho => ?_⟩
  rw [form_succ hs]
  have := Scan.of_skips h (by simpa using ho)
  simpa using this

/-- The scan stops at the sign. -/
theorem deal_hit {r : Re} {tm : Str} {k : Nat} {J : Str → Str → List (Spec.Sign × Str) → Prop} {pre w0 x y v' : Str} {s : Spec.Sign}
    {ps : List (Spec.Sign × Str)} {c : Caps} (hs : signStage s = k) (hne : s.source ≠ []) (hJ : J ((w0 ++ x ++ (s.source ++ y)).reverse ++ pre) v' ps)
    (hsk : Skips U r pre w0 (x ++ (s.source ++ (y ++ (v' ++ formText k ps)))))
    (hm : Heads U r (w0.reverse ++ pre) (x ++ (s.source ++ y)) (v' ++ formText k ps) [] c)
    (ht : templ tm (x ++ (s.source ++ y)) c = x ++ (s.html ++ y)) : Deal U r tm k J pre (w0 ++ x) s (y ++ v') ps := by
  obtain ⟨h1, h2⟩ := form_now hs
  refine ⟨y, v', rfl, by rw [h1]; exact hJ, fun out ho => ?_⟩
  rw [h1] at ho ⊢
  rw [h2]
  have := scan_hit hm (by simp [hne]) ht (by simpa using ho)
  have := Scan.of_skips hsk (by simpa using this)
  simpa using this

/-- Nothing of a word has been taken with the sign before it. -/
def Whole (pre w : Str) (ps : List (Spec.Sign × Str)) : Prop := ps ≠ [] → w = [] → pre = []

theorem Whole.next {pre w v p' : Str} {s : Spec.Sign} {ps : List (Spec.Sign × Str)} (h : SgBase U pre w ((s, v) :: ps)) : Whole p' v ps :=
  fun hp e => absurd e (h.after hp)

/-! ## Patterns that start with their core -/

def Near0 (U : Uni) (r : Re) (K : List (Char → Bool)) : Prop := ∀ w rest, r.lang U w → coreAt K (w ++ rest) = true

theorem Near0.miss {r : Re} {K : List (Char → Bool)} (h : Near0 U r K) {pre t : Str} (h1 : coreAt K t = false) : r.matchAt U ⟨pre, t⟩ = none := by
  refine matchAt_none_of (fun w rest e s' ht => ?_)
  simp only at e
  have := h w rest ht.lang
  rw [← e, h1] at this; cases this

theorem Near0.skips {r : Re} {K : List (Char → Bool)} (h : Near0 U r K) (hK : Outside K) {rest : Str} : ∀ {w pre : Str}, linesA.Over w → Skips U r pre w rest
  | [], _, _ => Skips.nil
  | c :: w, pre, hw => Skips.cons (h.miss (hK.head (hw c (by simp)))) (h.skips hK (fun x hx => hw x (by simp [hx])))

theorem Near0.skips_form {r : Re} {K : List (Char → Bool)} (h : Near0 U r K) {rest : Str} : ∀ {f pre : Str}, inertF K f = true → Skips U r pre f rest
  | [], _, _ => Skips.nil
  | c :: f, pre, hf => by
    simp only [inertF, Bool.and_eq_true, Bool.not_eq_true'] at hf
    refine Skips.cons (h.miss ?_) (h.skips_form hf.2)
    rw [← List.cons_append]; exact coreMay_append hf.1

theorem near0_sets {L : List Str} : Near0 U (setsRe L) (setsK L) := fun _ _ h => lang_sets h

theorem rest_false {K : List (Char → Bool)} (hK : Outside K) {pre w v : Str} {s : Spec.Sign} {ps : List (Spec.Sign × Str)} {k : Nat}
    (h : SgBase U pre w ((s, v) :: ps)) : coreAt K (v ++ formText k ps) = false := by
  cases v with
  | nil =>
    have : ps = [] := Classical.byContradiction (fun hp => h.after hp rfl)
    subst this
    exact hK.nil
  | cons c v => exact hK.head (prose_over h.next c (by simp))

theorem deal_inert {r : Re} {tm : Str} {k : Nat} {K : List (Char → Bool)} (hr : Near U r K) (hK : Outside K) {J : Str → Str → List (Spec.Sign × Str) → Prop}
    {pre w v : Str} {s : Spec.Sign} {ps : List (Spec.Sign × Str)} (h : SgBase U pre w ((s, v) :: ps)) (hs : signStage s ≠ k)
    (hJ : J ((w ++ form k s).reverse ++ pre) v ps) (hf : inertF K (form k s) = true) : Deal U r tm k J pre w s v ps := by
  refine deal_skip hs hJ (Skips.append (hr.skips hK ?_ (prose_over h.word)) (hr.skips_form (rest_false hK h) hf))
  cases hform : form k s with
  | nil => simpa using rest_false hK h
  | cons c f =>
    rw [hform] at hf
    simp only [inertF, Bool.and_eq_true, Bool.not_eq_true'] at hf
    exact coreMay_append hf.1

theorem deal_inert0 {r : Re} {tm : Str} {k : Nat} {K : List (Char → Bool)} (hr : Near0 U r K) (hK : Outside K) {J : Str → Str → List (Spec.Sign × Str) → Prop}
    {pre w v : Str} {s : Spec.Sign} {ps : List (Spec.Sign × Str)} (h : SgBase U pre w ((s, v) :: ps)) (hs : signStage s ≠ k)
    (hJ : J ((w ++ form k s).reverse ++ pre) v ps) (hf : inertF K (form k s) = true) : Deal U r tm k J pre w s v ps :=
  deal_skip hs hJ (Skips.append (hr.skips hK (prose_over h.word)) (hr.skips_form hf))

/-- A pattern that is its core. -/
theorem deal_sets {tm : Str} {k : Nat} {L : List Str} (hK : Outside (setsK L)) {J : Str → Str → List (Spec.Sign × Str) → Prop}
    {pre w v : Str} {s : Spec.Sign} {ps : List (Spec.Sign × Str)} (h : SgBase U pre w ((s, v) :: ps)) (hs : signStage s = k)
    (hJ : J ((w ++ s.source).reverse ++ pre) v ps) (hL : IsOf L s.source) (hne : s.source ≠ []) (ht : ∀ w, templ tm w [] = s.html) :
    Deal U (setsRe L) tm k J pre w s v ps := by
  have := deal_hit (U := U) (r := setsRe L) (tm := tm) (J := J) (pre := pre) (w0 := w) (x := []) (y := []) (v' := v) (ps := ps) hs hne (by simpa using hJ)
    (near0_sets.skips hK (prose_over h.word)) (by simpa using heads_sets hL) (by simpa using ht _)
  simpa using this


theorem inertF_append {K : List (Char → Bool)} {g : Str} (hg : inertF K g = true) : ∀ {f : Str}, inertF K f = true → inertF K (f ++ g) = true
  | [], _ => hg
  | c :: f, h => by
    simp only [inertF, Bool.and_eq_true, Bool.not_eq_true'] at h
    have key : ∀ {K : List (Char → Bool)} {z : Str}, coreMay K z = false → coreMay K (z ++ g) = false := by
      intro K
      induction K with
      | nil => intro z h; simp [coreMay] at h
      | cons k K ih =>
        intro z h
        cases z with
        | nil => simp [coreMay] at h
        | cons x z =>
          simp only [coreMay, Bool.and_eq_false_iff] at h
          simp only [List.cons_append, coreMay, Bool.and_eq_false_iff]
          rcases h with h | h
          · exact .inl h
          · exact .inr (ih h)
    have h1 := key (z := c :: f) h.1
    simp only [List.cons_append, inertF, Bool.and_eq_true, Bool.not_eq_true']
    exact ⟨h1, inertF_append hg h.2⟩

/-- The first class has neither digits nor lower case letters. -/
def NoAlnum (K : List (Char → Bool)) : Prop := ∃ k K', K = k :: K' ∧ ∀ c, Spec.isDecimal c = true ∨ Spec.isLowerLetter c = true → k c = false

theorem inertF_digits {K : List (Char → Bool)} (hK : NoAlnum K) {ds : Str} (h : ∀ c ∈ ds, Spec.isDecimal c = true) : inertF K ds = true := by
  obtain ⟨k, K', rfl, hk⟩ := hK
  exact inertF_of (fun c hc => hk c (.inl (h c hc)))

theorem dig_lines {c : Char} (h : Spec.isDecimal c = true) : linesA.Mem c := by
  rcases digA_of h with h | h
  · exact .inl ((by decide +kernel : ∀ c ∈ digA.ascii, c ∈ linesA.ascii) c h)
  · exact absurd h.1 (by decide)

theorem low_lines {c : Char} (h : Spec.isLowerLetter c = true) : linesA.Mem c := by
  simp [Spec.isLowerLetter] at h
  have key : ∀ n ∈ List.range 128, 97 ≤ n ∧ n ≤ 122 → Char.ofNat n ∈ linesA.ascii := by decide +kernel
  have := key c.toNat (by simp; omega) h
  rw [Char.ofNat_toNat] at this
  exact .inl this

theorem Outside.noAlnum {K : List (Char → Bool)} (h : Outside K) : NoAlnum K := by
  obtain ⟨k, K', rfl, hk⟩ := h
  refine ⟨k, K', rfl, fun c hc => hk c ?_⟩
  rcases hc with h | h
  · exact dig_lines h
  · exact low_lines h

/-- The core does not occur in a character reference. -/
theorem inertF_entity {K : List (Char → Bool)} (hK : NoAlnum K) (h1 : ∀ c, Spec.isLowerLetter c = true → coreMay K ['&', c] = false) (h2 : inertF K t!";" = true) {name : Str}
    (hne : name ≠ []) (h : ∀ c ∈ name, Spec.isLowerLetter c = true) : inertF K ('&' :: (name ++ t!";")) = true := by
  obtain ⟨x, u, rfl⟩ := List.exists_cons_of_ne_nil hne
  have h3 : inertF K ((x :: u) ++ t!";") = true := by
    refine inertF_append h2 ?_
    obtain ⟨k, K', rfl, hk⟩ := hK
    exact inertF_of (fun c hc => hk c (.inr (h c hc)))
  have h4 : coreMay K ('&' :: ((x :: u) ++ t!";")) = false := by
    have := h1 x (h x (by simp))
    cases K with
    | nil => simp [coreMay] at this
    | cons k K =>
      cases K with
      | nil => simpa [coreMay] using this
      | cons k' K => 
        have h0 : coreMay K [] = true := by cases K <;> rfl
        simp [coreMay, h0] at this ⊢
        intro h h'
        have := this h
        rw [h'] at this
        cases this
  simp only [inertF, h4, h3]
  rfl

end Rustextile
