import Verif.SignStages

/-!
# Replacing the signs one pattern after the other
-/

namespace Rustextile

variable {U : Uni}

def constSigns : List Spec.Sign :=
  [.apostrophe, .openSingle, .closeSingle, .openDouble, .closeDouble, .ellipsis, .ampersand, .emDash, .enDash] ++
    [Spec.Mark.trademark, .registered, .copyright, .half, .quarter, .threeQuarters, .degree, .plusMinus].flatMap
      (fun m => [.mark false false m, .mark false true m, .mark true false m, .mark true true m])

theorem mem_constSigns (s : Spec.Sign) : s ∈ constSigns ∨ (∃ ds, s = .decade ds) ∨ ∃ n, s = .entity n := by
  cases s with
  | decade ds => exact .inr (.inl ⟨ds, rfl⟩)
  | entity n => exact .inr (.inr ⟨n, rfl⟩)
  | mark a b m => left; revert a b m; intro a b m; cases m <;> revert a b <;> decide
  | _ => left; decide

theorem form_decade (k : Nat) (ds : Str) : form k (.decade ds) = form k (.decade []) ++ ds := by
  unfold form
  simp only [signStage, Spec.Sign.html, Spec.Sign.source]
  by_cases h : 3 < k <;> simp [h]

theorem form_entity (k : Nat) (n : Str) : form k (.entity n) = '&' :: (n ++ t!";") := by
  unfold form
  split <;> rfl

theorem forms_inert {K : List (Char → Bool)} (hK : NoAlnum K) {k : Nat} {ex : Spec.Sign → Bool}
    (hc : ∀ s ∈ constSigns, signStage s ≠ k → ex s = false → inertF K (form k s) = true)
    (hd : (∀ ds, ex (.decade ds) = true) ∨ k = 3 ∨ inertF K (form k (.decade [])) = true)
    (he : (∀ c, Spec.isLowerLetter c = true → coreMay K ['&', c] = false) ∧ inertF K t!";" = true) {s : Spec.Sign} {b : Option Char} {a : Str}
    (hf : s.Fits b a) (hs : signStage s ≠ k) (hx : ex s = false) : inertF K (form k s) = true := by
  rcases mem_constSigns s with h | ⟨ds, rfl⟩ | ⟨n, rfl⟩
  · exact hc s h hs hx
  · rcases hd with h | h | h
    · rw [h] at hx; cases hx
    · exact absurd h.symm hs
    · rw [form_decade]
      exact inertF_append (inertF_digits hK hf.2.2.1) h
  · rw [form_entity]
    exact inertF_entity hK he.1 he.2 hf.1 hf.2

/-- The character reference does not match a core that starts with another character. -/
theorem ref_other {l : Str} {K : List (Char → Bool)} (h : '&' ∉ l ∧ ';' ∉ l) :
    (∀ c, Spec.isLowerLetter c = true → coreMay ((fun c => l.contains c) :: K) ['&', c] = false) ∧ inertF ((fun c => l.contains c) :: K) t!";" = true := by
  refine ⟨fun c _ => ?_, ?_⟩
  · simp [coreMay, h.1]
  · simp [inertF, coreMay, h.2]

theorem deal_quote {r : Re} {tm : Str} {k : Nat} {q : Char} (hq : q ∉ linesA.ascii ∧ q.toNat < 128) {P : Char → Str → Prop}
    (hnear : Near U r (setsK [[q]])) (ht : ∀ pre w rest s s', Takes U r pre w rest s s' → ∃ c v, w = c :: q :: v ∧ P c (v ++ rest))
    {J : Str → Str → List (Spec.Sign × Str) → Prop}
    {pre w v f : Str} {s : Spec.Sign} {ps : List (Spec.Sign × Str)} (h : SgBase U pre w ((s, v) :: ps)) (hs : signStage s ≠ k)
    (hJ : J ((w ++ form k s).reverse ++ pre) v ps) (hform : form k s = q :: f) (hf : q ∉ f)
    (hP : ∀ w0 c, w = w0 ++ [c] → ¬ P c (f ++ (v ++ formText k ps))) : Deal U r tm k J pre w s v ps := by
  have hK : Outside (setsK [[q]]) := outside_chr (l := [q]) (by simpa using hq)
  have hrest : coreAt (setsK [[q]]) (v ++ formText k ps) = false := rest_false hK h
  have hif : inertF (setsK [[q]]) f = true := inertF_of (fun c hc => by
    have : c ≠ q := fun e => hf (e ▸ hc)
    simpa using this)
  have hfr : coreAt (setsK [[q]]) (f ++ (v ++ formText k ps)) = false := by
    cases f with
    | nil => exact hrest
    | cons a f =>
      have : a ≠ q := fun e => hf (by simp [e])
      simpa [coreAt, setsK] using this
  have key : ∀ c pre', ¬ P c (f ++ (v ++ formText k ps)) → r.matchAt U ⟨pre', c :: q :: (f ++ (v ++ formText k ps))⟩ = none := by
    intro c pre' hc
    refine matchAt_none_of (fun w' rest' e s' h' => ?_)
    obtain ⟨c', v', rfl, hp⟩ := ht _ _ _ _ _ h'
    simp only [List.cons_append, List.cons.injEq, true_and] at e
    obtain ⟨rfl, e⟩ := e
    rw [← e] at hp
    exact hc hp
  refine deal_skip hs hJ ?_
  rw [hform]
  refine Skips.append ?_ (Skips.cons ?_ (hnear.skips_form hrest hif))
  · have hw := prose_over h.word
    rcases List.eq_nil_or_concat w with rfl | ⟨w0, c, rfl⟩
    · exact Skips.nil
    · rw [List.concat_eq_append] at *
      refine Skips.append (hnear.skips hK ?_ (fun x hx => hw x (by simp [hx]))) (Skips.cons ?_ Skips.nil)
      · exact hK.head (hw c (by simp))
      · simpa using key c _ (hP w0 c rfl)
  · refine matchAt_none_of (fun w' rest' e s' h' => ?_)
    obtain ⟨c', v', rfl, hp⟩ := ht _ _ _ _ _ h'
    simp only [List.cons_append, List.cons.injEq] at e
    rw [e.2] at hfr
    simp [coreAt, setsK] at hfr

theorem stage_signs {s : Spec.Sign} {k : Nat} (hs : signStage s = k) (h3 : k ≠ 3) (h4 : k ≠ 100) {l : List Spec.Sign}
    (hf : constSigns.filter (fun s => signStage s == k) = l) : s ∈ l := by
  rcases mem_constSigns s with h | ⟨ds, rfl⟩ | ⟨n, rfl⟩
  · rw [← hf, List.mem_filter]; exact ⟨h, by simpa using hs⟩
  · exact absurd hs.symm h3
  · exact absurd hs.symm h4

/-! ## What is around a sign -/

theorem SgBase.fits {pre w : Str} {s : Spec.Sign} {v : Str} {ps : List (Spec.Sign × Str)} (h : SgBase U pre w ((s, v) :: ps)) :
    s.Fits (w.reverse ++ pre).head? (v ++ Spec.partsSource ps) := h.fit.1

/-- The text after the sign starts as the source does. -/
theorem SgBase.headEq {pre w : Str} {s : Spec.Sign} {v : Str} {ps : List (Spec.Sign × Str)} (h : SgBase U pre w ((s, v) :: ps)) (k : Nat) :
    (v ++ formText k ps).head? = (v ++ Spec.partsSource ps).head? := by
  cases v with
  | nil =>
    have : ps = [] := Classical.byContradiction (fun hp => h.after hp rfl)
    subst this; rfl
  | cons c v => rfl

theorem SgBase.startsIn {pre w : Str} {s : Spec.Sign} {v l : Str} {ps : List (Spec.Sign × Str)} (h : SgBase U pre w ((s, v) :: ps)) (k : Nat)
    (hl : Spec.StartsIn l (v ++ Spec.partsSource ps)) : Spec.StartsIn l (v ++ formText k ps) := by
  intro c u e
  have := h.headEq k
  rw [e] at this
  cases e' : v ++ Spec.partsSource ps with
  | nil => rw [e'] at this; cases this
  | cons a b => rw [e'] at this; simp at this; subst this; exact hl _ _ e'

theorem last_fit {pre w0 : Str} {c : Char} : ((w0 ++ [c]).reverse ++ pre).head? = some c := by simp

theorem lines_last {w0 : Str} {c : Char} (h : Spec.Prose U.isLu (w0 ++ [c])) : linesA.Mem c := prose_over h c (by simp)

theorem space_ws {c : Char} (h : c = ' ' ∨ c = '\n') : isWs c = true := by rcases h with rfl | rfl <;> rfl

theorem ws_false {c : Char} (h : linesA.Mem c) (h1 : c ≠ ' ' ∧ c ≠ '\n') : isWs c = false := by
  cases hw : isWs c with
  | false => rfl
  | true => rcases linesA_ws h hw with e | e
            · exact absurd e h1.1
            · exact absurd e h1.2

theorem wordy_space (hU : UniOk U) {c : Char} (h : c = ' ' ∨ c = '\n') : wordy U c = false := by
  rcases h with rfl | rfl <;> rw [wordy_ascii hU (by decide)] <;> rfl

def Stage (U : Uni) (r : Re) (tm : Str) (k : Nat) (w : Str) (ps : List (Spec.Sign × Str)) : Prop :=
  r.replaceTempl U tm (w ++ formText k ps) = w ++ formText (k + 1) ps

theorem stage_of {r : Re} {tm : Str} {k : Nat} {w : Str} {ps : List (Spec.Sign × Str)} (hn : r.nonnull = true) {J : Str → Str → List (Spec.Sign × Str) → Prop}
    (deal : ∀ pre w s v ps, SgBase U pre w ((s, v) :: ps) → J pre w ((s, v) :: ps) → Deal U r tm k J pre w s v ps)
    (done : ∀ pre w, Spec.Prose U.isLu w → Skips U r pre w []) (h : SgBase U [] w ps) (hJ : J [] w ps) : Stage U r tm k w ps :=
  Re.replaceTempl_eq hn (scan_signs deal done ps w [] h hJ)

/-! ## Apostrophes and single quotation marks -/

def exQ (l : List Spec.Sign) (dec : Bool) : Spec.Sign → Bool
  | .decade _ => dec
  | s => l.contains s

theorem quoteOut : Outside (setsK [t!"'"]) := outside_chr (by decide)

def AposP (U : Uni) (c : Char) (rest : Str) : Prop := (wordy U c = true ∨ c = ')') ∧ ∃ b t, rest = b :: t ∧ wordy U b = true

theorem apos_ex {s : Spec.Sign} (h : exQ [.closeSingle, .openSingle] true s = true) : s = .closeSingle ∨ s = .openSingle ∨ ∃ ds, s = .decade ds := by
  cases s <;> simp [exQ] at h ⊢

theorem stage_apos (hU : UniOk U) {w : Str} {ps : List (Spec.Sign × Str)} (h : SgBase U [] w ps) : Stage U GL_APOS_RE t!"$1&#8217;$2" 2 w ps := by
  refine stage_of (by kernel_rfl) (J := fun pre w ps => ∀ v ps', w = [] → ps ≠ (.apostrophe, v) :: ps') ?_ ?_ h ?_
  · intro pre w s v ps h hJ
    have hJ' : ∀ v2 ps', v = [] → ps ≠ (.apostrophe, v2) :: ps' := by
      rintro v2 ps' hv rfl
      exact h.after (by simp) hv
    by_cases hs : signStage s = 2
    · have hs' : s = .apostrophe := by simpa using stage_signs hs (by decide) (by decide) (l := [.apostrophe]) (by decide)
      subst hs'
      obtain ⟨⟨c, hc, hcl⟩, -, d, u, hd, hdl, hno⟩ := h.fits
      rcases List.eq_nil_or_concat w with rfl | ⟨w0, c', rfl⟩
      · exact absurd rfl (hJ v ps rfl)
      rw [List.concat_eq_append] at *
      rw [last_fit] at hc
      cases hc
      cases v with
      | nil =>
        have : ps = [] := Classical.byContradiction (fun hp => h.after hp rfl)
        subst this; cases hd
      | cons d' v' =>
        cases hd
        refine deal_hit (x := [c]) (y := [d]) (c := [(2, [d]), (1, [c])]) rfl (by decide) ?_ ?_ ?_ (by rfl)
        · rintro v2 ps' rfl rfl
          have hf := h.fit.2.2.1
          obtain ⟨-, -, e, u2, he, hel, -⟩ := hf
          refine hno ⟨e, u2, ?_, hel⟩
          change Spec.partsSource ((Spec.Sign.apostrophe, v2) :: ps') = _
          unfold Spec.partsSource
          rw [List.flatMap_cons, List.append_assoc]
          exact congrArg ('\'' :: ·) he
        · have hw := prose_over h.word
          exact apos_near.skips quoteOut (quoteOut.head (hw c (by simp))) (fun x hx => hw x (by simp [hx]))
        · exact apos_hit hU hcl hdl
    · by_cases hx : exQ [.closeSingle, .openSingle] true s = true
      · have ht : ∀ pre w rest s s', Takes U GL_APOS_RE pre w rest s s' → ∃ c v, w = c :: '\'' :: v ∧ AposP U c (v ++ rest) := by
          intro pre w rest s s' h
          obtain ⟨a, b, rfl, h1, h2⟩ := apos_takes h
          exact ⟨a, [b], rfl, h1, b, rest, rfl, h2⟩
        rcases apos_ex hx with rfl | rfl | ⟨ds, rfl⟩
        · refine deal_quote (P := AposP U) (by decide) apos_near ht h hs hJ' (f := []) rfl (by simp) ?_
          rintro w0 c rfl ⟨-, b, t, e, hb⟩
          have h1 := h.startsIn 2 h.fits.2.1 b t e
          rw [(gap_ascii hU h1).1] at hb; cases hb
        · refine deal_quote (P := AposP U) (by decide) apos_near ht h hs hJ' (f := []) rfl (by simp) ?_
          rintro w0 c rfl ⟨h1, -⟩
          have h2 := h.fits.1 c last_fit
          rcases h1 with h1 | rfl
          · rw [wordy_space hU h2] at h1; cases h1
          · revert h2; decide
        · refine deal_quote (P := AposP U) (by decide) apos_near ht h hs hJ' (f := ds) rfl ?_ ?_
          · intro hm
            have := h.fits.2.2.1 _ hm
            revert this; decide
          · rintro w0 c rfl ⟨h1, -⟩
            obtain ⟨c', e, h2⟩ := h.fits.1
            rw [last_fit] at e; cases e
            rcases h1 with h1 | rfl
            · rw [wordy_space hU h2] at h1; cases h1
            · revert h2; decide
      · exact deal_inert apos_near quoteOut h hs hJ' (forms_inert quoteOut.noAlnum (ex := exQ [.closeSingle, .openSingle] true) (by decide +kernel) (.inl (fun _ => rfl))
          (ref_other (by decide)) h.fits hs (by simpa using hx))
  · intro pre w hw
    exact apos_near.skips quoteOut quoteOut.nil (prose_over hw)
  · rintro v ps' rfl rfl
    obtain ⟨⟨c, hc, -⟩, -⟩ := h.fits
    cases hc

def DecadeP (U : Uni) (c : Char) (rest : Str) : Prop := isWs c = true ∧ ∃ b t, rest = b :: t ∧ U.isNd b = true

theorem quote_ex {l : List Spec.Sign} {s : Spec.Sign} (h : exQ l false s = true) : s ∈ l := by
  cases s <;> simp [exQ] at h ⊢ <;> exact h

theorem stage_decade (hU : UniOk U) {w : Str} {ps : List (Spec.Sign × Str)} (h : SgBase U [] w ps) : Stage U GL_88_RE t!"$1&#8217;$2" 3 w ps := by
  refine stage_of (by kernel_rfl) (J := Whole) ?_ ?_ h (fun _ _ => rfl)
  · intro pre w s v ps h hJ
    have hJ' : ∀ p', Whole p' v ps := fun p' => Whole.next h
    by_cases hs : signStage s = 3
    · have hs' : ∃ ds, s = .decade ds := by
        rcases mem_constSigns s with h | h | ⟨n, rfl⟩
        · exact absurd hs ((by decide : ∀ s ∈ constSigns, signStage s ≠ 3) s h)
        · exact h
        · cases hs
      obtain ⟨ds, rfl⟩ := hs'
      obtain ⟨⟨c, hc, hcs⟩, hlen, hds, hst, -⟩ := h.fits
      rcases List.eq_nil_or_concat w with rfl | ⟨w0, c', rfl⟩
      · rw [hJ (by simp) rfl] at hc; cases hc
      rw [List.concat_eq_append] at *
      rw [last_fit] at hc
      cases hc
      have hw := prose_over h.word
      have := deal_hit (U := U) (r := GL_88_RE) (tm := t!"$1&#8217;$2") (k := 3) (J := Whole) (pre := pre) (w0 := w0) (x := [c]) (y := []) (v' := v) (s := .decade ds) (ps := ps)
        (c := [(2, ds), (1, [c])]) rfl (by simp [Spec.Sign.source]) (hJ' _) ?_ ?_ ?_
      · exact this
      · exact decade_near.skips quoteOut (quoteOut.head (hw c (by simp))) (fun x hx => hw x (by simp [hx]))
      · have := decade_hit hU (pre := w0.reverse ++ pre) (rest := v ++ formText 3 ps) (c := c) (ds := ds) (space_ws hcs) (by rintro rfl; simp at hlen) hds (h.startsIn 3 hst)
        simpa [Spec.Sign.source] using this
      · have : templ t!"$1&#8217;$2" ([c] ++ ((Spec.Sign.decade ds).source ++ [])) [(2, ds), (1, [c])] = [c] ++ (Spec.charRef t!"8217" ++ (ds ++ [])) := rfl
        rw [this]
        simp [Spec.Sign.html]
    · by_cases hx : exQ [.closeSingle, .openSingle] false s = true
      · have ht : ∀ pre w rest s s', Takes U GL_88_RE pre w rest s s' → ∃ c v, w = c :: '\'' :: v ∧ DecadeP U c (v ++ rest) := by
          intro pre w rest s s' h
          obtain ⟨c, d, v, rfl, h1, h2⟩ := decade_takes h
          exact ⟨c, d :: v, rfl, h1, d, v ++ rest, rfl, h2⟩
        have := quote_ex hx
        simp at this
        rcases this with rfl | rfl
        · refine deal_quote (P := DecadeP U) (by decide) decade_near ht h hs (hJ' _) (f := []) rfl (by simp) ?_
          rintro w0 c rfl ⟨h1, -⟩
          obtain ⟨c', e, h2⟩ := h.fits.1
          rw [last_fit] at e; cases e
          rw [ws_false (lines_last h.word) h2] at h1; cases h1
        · refine deal_quote (P := DecadeP U) (by decide) decade_near ht h hs (hJ' _) (f := []) rfl (by simp) ?_
          rintro w0 c rfl ⟨-, b, t, e, hb⟩
          obtain ⟨c', u, e', hl, -⟩ := h.fits.2
          have h1 := h.headEq 3
          simp only [List.nil_append] at e
          rw [e, e'] at h1
          cases h1
          simp [Spec.isLetter] at hl
          rw [hU.dec b (by omega)] at hb
          simp [isDig] at hb
          omega
      · exact deal_inert decade_near quoteOut h hs (hJ' _) (forms_inert quoteOut.noAlnum (ex := exQ [.closeSingle, .openSingle] false) (by decide +kernel) (.inr (.inl rfl))
          (ref_other (by decide)) h.fits hs (by simpa using hx))
  · intro pre w hw
    exact decade_near.skips quoteOut quoteOut.nil (prose_over hw)

/-- The patterns of opening quotation marks after brackets. -/
theorem stage_openBracket {q : Char} {tm : Str} {k : Nat} {r : Re}
    (hc : ∀ s ∈ constSigns, signStage s ≠ k → inertF (setsK [t!"([{", [q]]) (form k s) = true) (hk : ∀ s, signStage s ≠ k) (hq : q ∉ digA.ascii ∧ q.toNat < 128 ∧ q ∉ linesA.ascii)
    {w : Str} {ps : List (Spec.Sign × Str)} (h : SgBase U [] w ps) (hd : inertF (setsK [t!"([{", [q]]) (form k (.decade [])) = true) 
    (hn : (Re.seq (.grp 1 (.set false (t!"([{".map .chr))) (.seq (.set false [.chr q]) r)).nonnull = true) :
    Stage U (.seq (.grp 1 (.set false (t!"([{".map .chr))) (.seq (.set false [.chr q]) r)) tm k w ps := by
  have hK : Outside (setsK [t!"([{", [q]]) := outside_chr (by decide)
  have hnear : Near0 U (.seq (.grp 1 (.set false (t!"([{".map .chr))) (.seq (.set false [.chr q]) r)) (setsK [t!"([{", [q]]) := by
    intro w rest hl
    obtain ⟨u, v, rfl, h1, h2⟩ := lang_seq.1 hl
    obtain ⟨x, rfl, hx⟩ := lang_set.1 (lang_grp.1 h1)
    obtain ⟨u', v', rfl, h3, -⟩ := lang_seq.1 h2
    rw [lang_chr.1 h3]
    rw [evalSet_chrs] at hx
    simp only [setsK, List.map_cons, List.map_nil, coreAt, List.append_assoc, List.cons_append, List.nil_append, hx]
    simp
  refine stage_of hn (J := fun _ _ _ => True) ?_ ?_ h trivial
  · intro pre w s v ps h _
    exact deal_inert0 hnear hK h (hk s) trivial (forms_inert hK.noAlnum (ex := fun _ => false) (fun s hs h _ => hc s hs h) (.inr (.inr hd)) (ref_other (by decide)) h.fits (hk s) rfl)
  · intro pre w hw
    exact hnear.skips hK (prose_over hw)

theorem signStage_ne (k : Nat) (h : (k = 1 ∨ k = 4 ∨ k = 7 ∨ k = 11)) (s : Spec.Sign) : signStage s ≠ k := by
  intro e
  have := stage_signs e (by omega) (by omega) (l := []) (by rcases h with rfl | rfl | rfl | rfl <;> decide)
  cases this

theorem stage_sopenb {w : Str} {ps : List (Spec.Sign × Str)} (h : SgBase U [] w ps) : Stage U GL_SOPENB_RE t!"$1&#8216;" 4 w ps := by
  rw [SOPENB_shape]
  exact stage_openBracket (by decide +kernel) (signStage_ne 4 (by simp)) (by decide) h (by decide +kernel) (by kernel_rfl)

theorem stage_dopenb {w : Str} {ps : List (Spec.Sign × Str)} (h : SgBase U [] w ps) : Stage U GL_DOPENB_RE t!"$1&#8220;" 7 w ps := by
  rw [DOPENB_shape]
  exact stage_openBracket (by decide +kernel) (signStage_ne 7 (by simp)) (by decide) h (by decide +kernel) (by kernel_rfl)

/-- The patterns of closing quotation marks. -/
theorem stage_close {q : Char} {tm : Str} {k : Nat} {close op : Spec.Sign} {w : Str} {ps : List (Spec.Sign × Str)}
    (hq : q ∉ linesA.ascii ∧ q.toNat < 128 ∧ q ∉ t!"&;") (hk : k ≠ 3 ∧ k ≠ 100) (hf : constSigns.filter (fun s => signStage s == k) = [close])
    (hc : ∀ s ∈ constSigns, signStage s ≠ k → exQ [op] false s = false → inertF (setsK [[q]]) (form k s) = true)
    (hd : inertF (setsK [[q]]) (form k (.decade [])) = true)
    (h1 : close.source = [q] ∧ form k op = [q] ∧ signStage op ≠ k ∧ signStage close = k)
    (h2 : ∀ b a, close.Fits b a → Spec.Behind (fun c => c ≠ ' ' ∧ c ≠ '\n') b ∧ Spec.StartsIn t!" \n,./" a)
    (h3 : ∀ b a, op.Fits b a → (∀ c, b = some c → c = ' ' ∨ c = '\n')) (ht : ∀ c w, templ tm w [(1, [c])] = c :: close.html)
    (hn : (Re.seq (.grp 1 (.set false [.ncls .space])) (.seq (.set false [.chr q]) endRe)).nonnull = true) (h : SgBase U [] w ps) :
    Stage U (.seq (.grp 1 (.set false [.ncls .space])) (.seq (.set false [.chr q]) endRe)) tm k w ps := by
  have hK : Outside (setsK [[q]]) := outside_chr (l := [q]) (by simpa using ⟨hq.1, hq.2.1⟩)
  refine stage_of hn (J := Whole) ?_ ?_ h (fun _ _ => rfl)
  · intro pre w s v ps h hJ
    have hJ' : ∀ p', Whole p' v ps := fun p' => Whole.next h
    by_cases hs : signStage s = k
    · have hs' : s = close := by simpa using stage_signs hs hk.1 hk.2 hf
      subst hs'
      obtain ⟨⟨c, hc, hcs⟩, hst⟩ := h2 _ _ h.fits
      rcases List.eq_nil_or_concat w with rfl | ⟨w0, c', rfl⟩
      · rw [hJ (by simp) rfl] at hc; cases hc
      rw [List.concat_eq_append] at *
      rw [last_fit] at hc
      cases hc
      have hw := prose_over h.word
      refine deal_hit (x := [c]) (y := []) (v' := v) (c := [(1, [c])]) hs (by simp [h1]) (hJ' _) ?_ ?_ (by rw [ht]; simp)
      · exact near_quote.skips hK (hK.head (hw c (by simp))) (fun x hx => hw x (by simp [hx]))
      · rw [h1.1]
        exact quote_hit (ws_false (lines_last h.word) hcs) (h.startsIn k hst)
    · by_cases hx : exQ [op] false s = true
      · have := quote_ex hx
        simp at this
        subst this
        refine deal_quote (P := fun c _ => isWs c = false) ⟨hq.1, hq.2.1⟩ near_quote ?_ h hs (hJ' _) (f := []) h1.2.1 (by simp) ?_
        · intro pre w rest s s' h
          obtain ⟨c, v, rfl, hc, -⟩ := quote_takes h
          exact ⟨c, v, rfl, by simpa [evalSet, Item.eval, UC.eval] using hc⟩
        · rintro w0 c rfl hp
          rw [space_ws (h3 _ _ h.fits c last_fit)] at hp; cases hp
      · have : ∀ {l : Str} {x : Char}, x ∉ l → q = x → q ∉ l := fun h e => e ▸ h
        exact deal_inert near_quote hK h hs (hJ' _) (forms_inert hK.noAlnum (ex := exQ [op] false) hc (.inr (.inr hd))
          (ref_other (l := [q]) (by simpa [eq_comm] using hq.2.2)) h.fits hs (by simpa using hx))
  · intro pre w hw
    exact near_quote.skips hK hK.nil (prose_over hw)

theorem stage_sclose {w : Str} {ps : List (Spec.Sign × Str)} (h : SgBase U [] w ps) : Stage U GL_SCLOSE_RE t!"$1&#8217;" 5 w ps := by
  rw [SCLOSE_shape]
  exact stage_close (close := .closeSingle) (op := .openSingle) (by decide) (by decide) (by decide) (by decide +kernel) (by decide +kernel) (by decide)
    (fun _ _ h => ⟨h.1, h.2.1⟩) (fun _ _ h => h.1) (fun c w => rfl) (by kernel_rfl) h

theorem stage_dclose {w : Str} {ps : List (Spec.Sign × Str)} (h : SgBase U [] w ps) : Stage U GL_DCLOSE_RE t!"$1&#8221;" 8 w ps := by
  rw [DCLOSE_shape]
  exact stage_close (close := .closeDouble) (op := .openDouble) (by decide) (by decide) (by decide) (by decide +kernel) (by decide +kernel) (by decide)
    (fun _ _ h => ⟨h.1, h.2.1⟩) (fun _ _ h => h.1) (fun c w => rfl) (by kernel_rfl) h

/-! ## Signs that are only looked for -/

def isOfB : List Str → Str → Bool
  | [], w => w.isEmpty
  | _ :: _, [] => false
  | k :: K, c :: w => k.contains c && isOfB K w

theorem isOfB_sound : ∀ {L : List Str} {w : Str}, isOfB L w = true → IsOf L w
  | [], w, h => by
    change w = []
    simpa [isOfB] using h
  | _ :: _, [], h => by simp [isOfB] at h
  | k :: K, c :: w, h => by
    simp only [isOfB, Bool.and_eq_true, List.contains_iff_mem] at h
    exact ⟨c, w, rfl, h.1, isOfB_sound h.2⟩

theorem stage_sets {L : List Str} {tm : Str} {k : Nat} {w : Str} {ps : List (Spec.Sign × Str)} (hk : k ≠ 3 ∧ k ≠ 100)
    (hK : Outside (setsK L)) (hn : (setsRe L).nonnull = true)
    (hc : ∀ s ∈ constSigns, if signStage s = k then isOfB L s.source = true ∧ s.source ≠ [] ∧ templ tm [] [] = s.html else inertF (setsK L) (form k s) = true)
    (hd : inertF (setsK L) (form k (.decade [])) = true)
    (he : (∀ c, Spec.isLowerLetter c = true → coreMay (setsK L) ['&', c] = false) ∧ inertF (setsK L) t!";" = true)
    (ht : ∀ w, templ tm w [] = templ tm [] []) (h : SgBase U [] w ps) :
    Stage U (setsRe L) tm k w ps := by
  refine stage_of hn (J := fun _ _ _ => True) ?_ ?_ h trivial
  · intro pre w s v ps h _
    by_cases hs : signStage s = k
    · have hm : s ∈ constSigns := (List.mem_filter.1 (stage_signs hs hk.1 hk.2 rfl)).1
      have := hc s hm
      rw [if_pos hs] at this
      exact deal_sets hK h hs trivial (isOfB_sound this.1) this.2.1 (fun w => by rw [ht, this.2.2])
    · refine deal_inert0 near0_sets hK h hs trivial (forms_inert hK.noAlnum (ex := fun _ => false) (fun s hm h _ => ?_) (.inr (.inr hd)) he h.fits hs rfl)
      have := hc s hm
      rwa [if_neg h] at this
  · intro pre w hw
    exact near0_sets.skips hK (prose_over hw)

theorem stage_sopen {w : Str} {ps : List (Spec.Sign × Str)} (h : SgBase U [] w ps) : Stage U GL_SOPEN_RE t!"&#8216;" 6 w ps := by
  rw [SOPEN_shape]
  exact stage_sets (by decide) (outside_chr (by decide)) (by kernel_rfl) (by decide +kernel) (by decide +kernel) (ref_other (by decide)) (fun _ => rfl) h

theorem stage_dopen {w : Str} {ps : List (Spec.Sign × Str)} (h : SgBase U [] w ps) : Stage U GL_DOPEN_RE t!"&#8220;" 9 w ps := by
  rw [DOPEN_shape]
  exact stage_sets (by decide) (outside_chr (by decide)) (by kernel_rfl) (by decide +kernel) (by decide +kernel) (ref_other (by decide)) (fun _ => rfl) h

theorem stage_half {w : Str} {ps : List (Spec.Sign × Str)} (h : SgBase U [] w ps) : Stage U GL_12_RE t!"&#189;" 17 w ps := by
  rw [HALF_shape]
  exact stage_sets (by decide) (outside_chr (by decide)) (by kernel_rfl) (by decide +kernel) (by decide +kernel) (ref_other (by decide)) (fun _ => rfl) h

theorem stage_quarter {w : Str} {ps : List (Spec.Sign × Str)} (h : SgBase U [] w ps) : Stage U GL_14_RE t!"&#188;" 18 w ps := by
  rw [QUARTER_shape]
  exact stage_sets (by decide) (outside_chr (by decide)) (by kernel_rfl) (by decide +kernel) (by decide +kernel) (ref_other (by decide)) (fun _ => rfl) h

theorem stage_three {w : Str} {ps : List (Spec.Sign × Str)} (h : SgBase U [] w ps) : Stage U GL_34_RE t!"&#190;" 19 w ps := by
  rw [THREE_shape]
  exact stage_sets (by decide) (outside_chr (by decide)) (by kernel_rfl) (by decide +kernel) (by decide +kernel) (ref_other (by decide)) (fun _ => rfl) h

theorem stage_deg {w : Str} {ps : List (Spec.Sign × Str)} (h : SgBase U [] w ps) : Stage U GL_DEG_RE t!"&#176;" 20 w ps := by
  rw [DEG_shape]
  exact stage_sets (by decide) (outside_chr (by decide)) (by kernel_rfl) (by decide +kernel) (by decide +kernel) (ref_other (by decide)) (fun _ => rfl) h

theorem stage_pm {w : Str} {ps : List (Spec.Sign × Str)} (h : SgBase U [] w ps) : Stage U GL_PM_RE t!"&#177;" 21 w ps := by
  rw [PM_shape]
  exact stage_sets (by decide) (outside_chr (by decide)) (by kernel_rfl) (by decide +kernel) (by decide +kernel) (ref_other (by decide)) (fun _ => rfl) h

/-! ## Dots -/

def dotsK : List (Char → Bool) := setsK [t!".", t!".", t!"."]

/-- Three dots are not found in front of something. -/
theorem dots_false {u t : Str} (hu : ∀ b, u ≠ '.' :: '.' :: '.' :: b) (h : t.head? ≠ some '.' ∨ (u ≠ [] ∧ u.getLast? ≠ some '.')) : coreAt dotsK (u ++ t) = false := by
  have ht : t.head? ≠ some '.' → coreAt dotsK t = false ∧ coreAt (setsK [t!".", t!"."]) t = false ∧ coreAt (setsK [t!"."]) t = false := by
    intro h
    cases t with
    | nil => exact ⟨rfl, rfl, rfl⟩
    | cons c t => simp at h; simp [dotsK, setsK, coreAt, h]
  rcases u with _ | ⟨a, _ | ⟨b, _ | ⟨c, u⟩⟩⟩
  · rcases h with h | h
    · exact (ht h).1
    · exact absurd rfl h.1
  · rcases h with h | h
    · have := (ht h).2.1
      simp only [dotsK, setsK, List.map_cons, List.map_nil, coreAt, List.cons_append, List.nil_append] at this ⊢
      rw [this]
      simp
    · simp at h
      simp [dotsK, setsK, coreAt, h]
  · rcases h with h | h
    · have := (ht h).2.2
      simp only [dotsK, setsK, List.map_cons, List.map_nil, coreAt, List.cons_append, List.nil_append] at this ⊢
      rw [this]
      simp
    · simp at h
      simp [dotsK, setsK, coreAt, h]
  · have := hu u
    simp [dotsK, setsK, coreAt]
    intro e1 e2 e3
    exact this (by rw [e1, e2, e3])

theorem dots_suffix {y v : Str} (h : Spec.Prose U.isLu (y ++ v)) : ∀ b, v ≠ '.' :: '.' :: '.' :: b := fun b e => h.dots y b (by rw [e])

theorem dots_skips {rest : Str} : ∀ {w pre : Str}, (Spec.Prose U.isLu w) → (rest.head? ≠ some '.' ) → Skips U GL_ELLIPSIS_RE pre w rest
  | [], _, _, _ => Skips.nil
  | c :: w, pre, hw, hr => by
    have ht : Spec.Prose U.isLu w := Prose.tail (y := [c]) hw
    refine Skips.cons (ell_near.miss ?_ ?_) (dots_skips ht hr)
    · exact dots_false (u := c :: w) (dots_suffix (y := []) hw) (.inl hr)
    · exact dots_false (u := w) (dots_suffix (y := []) ht) (.inl hr)

theorem dots_skips_last {t : Str} {d : Char} (hd : d ≠ '.') : ∀ {w pre : Str}, (Spec.Prose U.isLu (w ++ [d])) → Skips U GL_ELLIPSIS_RE pre w (d :: t)
  | [], _, _ => Skips.nil
  | c :: w, pre, hw => by
    have ht : Spec.Prose U.isLu (w ++ [d]) := Prose.tail (y := [c]) hw
    refine Skips.cons (ell_near.miss ?_ ?_) (dots_skips_last hd ht)
    · have := dots_false (u := c :: (w ++ [d])) (t := t) (dots_suffix (y := []) hw) (.inr ⟨by simp, by rw [← List.cons_append, List.getLast?_concat]; simpa using hd⟩)
      simpa [dotsK] using this
    · have := dots_false (u := w ++ [d]) (t := t) (dots_suffix (y := []) ht) (.inr ⟨by simp, by rw [List.getLast?_concat]; simpa using hd⟩)
      simpa [dotsK] using this

theorem form_head {k : Nat} {s : Spec.Sign} (hs : s ≠ .ellipsis) : ∃ c f, form k s = c :: f ∧ c ≠ '.' := by
  have h1 : ∃ c f, s.html = c :: f ∧ c ≠ '.' := by
    cases s <;> exact ⟨_, _, rfl, by decide⟩
  have h2 : ∃ c f, s.source = c :: f ∧ c ≠ '.' := by
    cases s with
    | ellipsis => exact absurd rfl hs
    | mark sq cap m => exact ⟨_, _, rfl, by cases sq <;> decide⟩
    | _ => exact ⟨_, _, rfl, by decide⟩
  unfold form
  by_cases h : signStage s < k
  · rw [if_pos h]; exact h1
  · rw [if_neg h]; exact h2

theorem dotsAl : NoAlnum dotsK := by
  refine ⟨_, _, rfl, fun c hc => ?_⟩
  simp [Spec.isDecimal, Spec.isLowerLetter] at hc
  simp
  rintro rfl
  revert hc; decide

theorem stage_ellipsis {w : Str} {ps : List (Spec.Sign × Str)} (h : SgBase U [] w ps) : Stage U GL_ELLIPSIS_RE t!"$1&#8230;" 10 w ps := by
  refine stage_of (by kernel_rfl) (J := Whole) ?_ ?_ h (fun _ _ => rfl)
  · intro pre w s v ps h hJ
    have hJ' : ∀ p', Whole p' v ps := fun p' => Whole.next h
    by_cases hs : s = .ellipsis
    · subst hs
      have hf := h.fits.1
      rcases List.eq_nil_or_concat w with rfl | ⟨w0, c, rfl⟩
      · have := hJ (by simp) rfl
        subst this
        exact deal_hit (w0 := []) (x := []) (y := []) (v' := v) (c := [(1, [])]) rfl (by decide) (hJ' _) Skips.nil (ell_hit (.inl rfl)) (by rfl)
      · rw [List.concat_eq_append] at *
        rw [last_fit] at hf
        have hc : c ≠ '.' := by simpa using hf
        exact deal_hit (w0 := w0) (x := [c]) (y := []) (v' := v) (c := [(1, [c])]) rfl (by decide) (hJ' _) (dots_skips_last hc h.word) (ell_hit (.inr ⟨c, rfl, hc⟩)) (by rfl)
    · have hs' : signStage s ≠ 10 := by
        intro e
        exact hs (by simpa using stage_signs e (by decide) (by decide) (l := [.ellipsis]) (by decide))
      obtain ⟨c, f, hform, hc⟩ := form_head (k := 10) hs
      refine deal_skip hs' (hJ' _) (Skips.append (dots_skips h.word (by rw [hform]; simpa using hc)) (ell_near.skips_form ?_ ?_))
      · change coreAt dotsK _ = false
        refine dots_false (dots_suffix (y := []) h.next) ?_
        cases ps with
        | nil => left; simp [formText]
        | cons p ps =>
          obtain ⟨s2, v2⟩ := p
          by_cases h2 : s2 = .ellipsis
          · subst h2
            exact .inr ⟨h.after (by simp), h.fit.2.2.1.1⟩
          · left
            obtain ⟨c2, f2, hf2, hc2⟩ := form_head (k := 10) h2
            rw [formText_cons, hf2]
            simpa using hc2
      · exact forms_inert (K := dotsK) dotsAl (ex := fun _ => false) (by decide +kernel) (.inr (.inr (by decide +kernel))) (ref_other (by decide)) h.fits hs' rfl
  · intro pre w hw
    exact dots_skips hw (by simp)

/-! ## Ampersands -/

def ampK : List (Char → Bool) := [fun c => t!"&".contains c, isWs]

theorem stage_amp {w : Str} {ps : List (Spec.Sign × Str)} (h : SgBase U [] w ps) : Stage U GL_AMP_RE t!"$1&amp;$2" 11 w ps := by
  have hK : Outside ampK := outside_chr (by decide)
  refine stage_of (by kernel_rfl) (J := fun _ _ _ => True) ?_ ?_ h trivial
  · intro pre w s v ps h _
    refine deal_inert amp_near hK h (signStage_ne 11 (by simp) s) trivial (forms_inert (K := ampK) hK.noAlnum (ex := fun _ => false) (by decide +kernel) (.inr (.inr (by decide +kernel))) ⟨?_, by decide +kernel⟩ h.fits (signStage_ne 11 (by simp) s) rfl)
    intro c hc
    have : isWs c = false := by
      simp [Spec.isLowerLetter] at hc
      simp [isWs]; omega
    simp [ampK, coreMay, this]
  · intro pre w hw
    exact amp_near.skips hK hK.nil (prose_over hw)

/-! ## Dashes -/

theorem em_takes {pre w rest : Str} {s s' : Caps} (h : Takes U GL_EMDASH_RE pre w rest s s') :
    ∃ x y, w = x ++ '-' :: y ∧ (x = [] ∨ ∃ c, x = [c] ∧ isWs c = true) := by
  have hl := h.lang
  rw [EM_shape] at hl
  obtain ⟨x, y, rfl, h1, h2⟩ := lang_seq.1 hl
  obtain ⟨u, v, rfl, h3, -⟩ := lang_seq.1 h2
  rw [lang_chr.1 h3]
  refine ⟨x, v, rfl, ?_⟩
  rcases lang_alt.1 (lang_grp.1 h1) with h | h
  · obtain ⟨c, rfl, hc⟩ := lang_set.1 h
    exact .inr ⟨c, rfl, by simpa [evalSet, Item.eval, UC.eval] using hc⟩
  · exact .inl h

theorem stage_em {w : Str} {ps : List (Spec.Sign × Str)} (h : SgBase U [] w ps) : Stage U GL_EMDASH_RE t!"$1&#8212;$2" 12 w ps := by
  have hK : Outside (setsK [t!"-", t!"-"]) := outside_chr (by decide)
  refine stage_of (by kernel_rfl) (J := fun _ _ _ => True) ?_ ?_ h trivial
  · intro pre w s v ps h _
    by_cases hs : signStage s = 12
    · have hs' : s = .emDash := by simpa using stage_signs hs (by decide) (by decide) (l := [.emDash]) (by decide)
      subst hs'
      have hw := prose_over h.word
      have hv := prose_over h.next
      have hx : ∃ w0 x, w = w0 ++ x ∧ (x = [] ∨ ∃ c, x = [c] ∧ isWs c = true) ∧ ∀ T, Skips U GL_EMDASH_RE pre w0 (x ++ ('-' :: T)) := by
        rcases List.eq_nil_or_concat w with rfl | ⟨w0, c, rfl⟩
        · exact ⟨[], [], rfl, .inl rfl, fun T => Skips.nil⟩
        · rw [List.concat_eq_append] at *
          have hw0 : linesA.Over w0 := fun x hx => hw x (by simp [hx])
          have hc : linesA.Mem c := hw c (by simp)
          by_cases hcw : isWs c = true
          · exact ⟨w0, [c], rfl, .inr ⟨c, rfl, hcw⟩, fun T => em_near.skips hK (hK.head hc) hw0⟩
          · refine ⟨w0 ++ [c], [], by simp, .inl rfl, fun T => Skips.append (em_near.skips hK (hK.head hc) hw0) (Skips.cons ?_ Skips.nil)⟩
            refine matchAt_none_of (fun w' rest' e s' h' => ?_)
            obtain ⟨x, y, rfl, hx⟩ := em_takes h'
            rcases hx with rfl | ⟨d, rfl, hd⟩
            · simp at e
              rw [e.1] at hc
              exact absurd hc (Alpha.not_mem (by decide) (by decide))
            · simp at e
              rw [← e.1] at hd; exact hcw hd
      have hy : ∃ y v', v = y ++ v' ∧ ((y = [] ∧ ∀ c u, v' ++ formText 12 ps = c :: u → isWs c = false) ∨ ∃ c, y = [c] ∧ isWs c = true) := by
        cases v with
        | nil =>
          have : ps = [] := Classical.byContradiction (fun hp => h.after hp rfl)
          subst this
          exact ⟨[], [], rfl, .inl ⟨rfl, by simp [formText]⟩⟩
        | cons c v =>
          by_cases hc : isWs c = true
          · exact ⟨[c], v, rfl, .inr ⟨c, rfl, hc⟩⟩
          · refine ⟨[], c :: v, rfl, .inl ⟨rfl, ?_⟩⟩
            intro d u e
            cases e
            simpa using hc
      obtain ⟨w0, x, rfl, hx, hsk⟩ := hx
      obtain ⟨y, v', rfl, hy⟩ := hy
      refine deal_hit (c := [(2, y), (1, x)]) rfl (by decide) trivial (hsk _) (em_hit hx hy) ?_
      have : templ t!"$1&#8212;$2" (x ++ (Spec.Sign.emDash.source ++ y)) [(2, y), (1, x)] = x ++ (Spec.charRef t!"8212" ++ (y ++ [])) := rfl
      rw [this]
      simp [Spec.Sign.html]
    · exact deal_inert em_near hK h hs trivial (forms_inert hK.noAlnum (ex := fun _ => false) (by decide +kernel) (.inr (.inr (by decide +kernel)))
          (ref_other (by decide)) h.fits hs rfl)
  · intro pre w hw
    exact em_near.skips hK hK.nil (prose_over hw)

theorem stage_en {w : Str} {ps : List (Spec.Sign × Str)} (h : SgBase U [] w ps) : Stage U GL_ENDASH_RE t!" &#8211; " 13 w ps := by
  have hK : Outside (setsK [t!"-", t!" "]) := outside_chr (by decide)
  refine stage_of (by kernel_rfl) (J := fun _ _ _ => True) ?_ ?_ h trivial
  · intro pre w s v ps h _
    by_cases hs : signStage s = 13
    · have hs' : s = .enDash := by simpa using stage_signs hs (by decide) (by decide) (l := [.enDash]) (by decide)
      subst hs'
      have := deal_hit (U := U) (r := GL_ENDASH_RE) (tm := t!" &#8211; ") (J := fun _ _ _ => True) (pre := pre) (w0 := w) (x := []) (y := []) (v' := v) (ps := ps)
        (c := []) (s := .enDash) (k := 13) rfl (by decide) trivial (en_near.skips hK rfl (prose_over h.word))
        (by rw [EN_shape]; exact heads_sets (isOfB_sound (by decide))) (by rfl)
      simpa using this
    · exact deal_inert en_near hK h hs trivial (forms_inert hK.noAlnum (ex := fun _ => false) (by decide +kernel) (.inr (.inr (by decide +kernel)))
          (ref_other (by decide)) h.fits hs rfl)
  · intro pre w hw
    exact en_near.skips hK hK.nil (prose_over hw)

/-! ## Marks after something -/

theorem bnd_space {w : Str} (h : bndRe.lang U w) : w = [] ∨ ∃ x, w = [x] ∧ isWs x = true := by
  simp only [bndRe, wsRe, lang_alt, lang_seq, lang_chr, lang_set, lang_bot, lang_eps] at h
  rcases h with ⟨u, v, rfl, h1, h2⟩ | ⟨x, rfl, hx⟩ | rfl
  · have : u = [] := h1
    subst this
    rcases h2 with ⟨x, rfl, hx⟩ | rfl
    · rw [evalSet_chr] at hx
      have : x = ' ' := by simpa using hx
      subst this
      exact .inr ⟨_, rfl, rfl⟩
    · exact .inl rfl
  · exact .inr ⟨_, rfl, by simpa [evalSet, Item.eval, UC.eval] using hx⟩
  · exact .inl rfl

theorem stage_bnd (hU : UniOk U) {L : List Str} {tm : Str} {k : Nat} {w : Str} {ps : List (Spec.Sign × Str)} {m : Spec.Mark} (hk : k ≠ 3 ∧ k ≠ 100)
    (hm : m = .trademark ∨ m = .registered ∨ m = .copyright)
    (hn : (Re.seq (.grp 1 bndRe) (setsRe (t!"([" :: L))).nonnull = true)
    (hf : constSigns.filter (fun s => signStage s == k) = [.mark false false m, .mark false true m, .mark true false m, .mark true true m])
    (hc : ∀ s ∈ constSigns, if signStage s = k then isOfB (t!"([" :: L) s.source = true ∧ s.source ≠ [] else inertF (setsK (t!"([" :: L)) (form k s) = true)
    (hd : inertF (setsK (t!"([" :: L)) (form k (.decade [])) = true)
    (ht : ∀ x w, templ tm w [(1, x)] = x ++ Spec.charRef m.number) (h : SgBase U [] w ps) :
    Stage U (.seq (.grp 1 bndRe) (setsRe (t!"([" :: L))) tm k w ps := by
  have hK : Outside (setsK (t!"([" :: L)) := outside_chr (by decide)
  refine stage_of hn (J := Whole) ?_ ?_ h (fun _ _ => rfl)
  · intro pre w s v ps h hJ
    have hJ' : ∀ p', Whole p' v ps := fun p' => Whole.next h
    by_cases hs : signStage s = k
    · have hl := stage_signs hs hk.1 hk.2 hf
      have hs' : ∃ a b, s = .mark a b m := by
        simp at hl
        rcases hl with rfl | rfl | rfl | rfl <;> exact ⟨_, _, rfl⟩
      have hmem : s ∈ constSigns := (List.mem_filter.1 (stage_signs hs hk.1 hk.2 rfl)).1
      have hsrc := hc s hmem
      rw [if_pos hs] at hsrc
      obtain ⟨a, b, rfl⟩ := hs'
      have hfit := h.fits.2.2 hm
      have hw := prose_over h.word
      have hx : ∃ w0 x, w = w0 ++ x ∧ ((x = [] ∧ (w0.reverse ++ pre = [] ∨ ∃ c p, w0.reverse ++ pre = c :: p ∧ Spec.isLetterOrDigit c = true)) ∨ x = [' '] ∨ x = ['\n']) ∧
          ∀ T, Skips U (.seq (.grp 1 bndRe) (setsRe (t!"([" :: L))) pre w0 (x ++ ((Spec.Sign.mark a b m).source ++ T)) := by
        rcases List.eq_nil_or_concat w with rfl | ⟨w0, c, rfl⟩
        · exact ⟨[], [], rfl, .inl ⟨rfl, .inl (by simpa using hJ (by simp) rfl)⟩, fun T => Skips.nil⟩
        · rw [List.concat_eq_append] at *
          have hw0 : linesA.Over w0 := fun x hx => hw x (by simp [hx])
          have hc : linesA.Mem c := hw c (by simp)
          rcases hfit c last_fit with rfl | rfl | hl
          · exact ⟨w0, _, rfl, .inr (.inl rfl), fun T => bnd_near.skips hK (hK.head hc) hw0⟩
          · exact ⟨w0, _, rfl, .inr (.inr rfl), fun T => bnd_near.skips hK (hK.head hc) hw0⟩
          · refine ⟨w0 ++ [c], [], by simp, .inl ⟨rfl, .inr ⟨c, w0.reverse ++ pre, by simp, hl⟩⟩, fun T => Skips.append (bnd_near.skips hK (hK.head hc) hw0) (Skips.cons ?_ Skips.nil)⟩
            refine matchAt_none_of (fun w' rest' e s' h' => ?_)
            obtain ⟨x, y, rfl, h1, h2⟩ := lang_seq.1 h'.lang
            rcases bnd_space (lang_grp.1 h1) with rfl | ⟨d, rfl, hd⟩
            · have := lang_sets (rest := rest') h2
              simp only [List.nil_append] at e
              rw [← e, hK.head hc] at this; cases this
            · simp at e
              rw [← e.1] at hd
              rcases linesA_ws hc hd with rfl | rfl
              · revert hl; decide
              · revert hl; decide
      obtain ⟨w0, x, rfl, hx, hsk⟩ := hx
      have := deal_hit (U := U) (r := .seq (.grp 1 bndRe) (setsRe (t!"([" :: L))) (tm := tm) (J := Whole) (pre := pre) (w0 := w0) (x := x) (y := []) (v' := v) (ps := ps)
        (c := [(1, x)]) (s := .mark a b m) (k := k) hs hsrc.2 (hJ' _) (hsk _) (by rw [List.append_nil]; exact bnd_hit hU (isOfB_sound hsrc.1) hx) (by rw [ht]; simp [Spec.Sign.html])
      exact this
    · refine deal_inert bnd_near hK h hs (hJ' _) (forms_inert hK.noAlnum (ex := fun _ => false) (fun s hm h _ => ?_) (.inr (.inr hd))
          (ref_other (by decide)) h.fits hs rfl)
      have := hc s hm
      rwa [if_neg h] at this
  · intro pre w hw
    exact bnd_near.skips hK hK.nil (prose_over hw)

theorem stage_tm (hU : UniOk U) {w : Str} {ps : List (Spec.Sign × Str)} (h : SgBase U [] w ps) : Stage U GL_TM_RE t!"$1&#8482;" 14 w ps := by
  rw [TM_shape]
  exact stage_bnd (m := .trademark) hU (by decide) (by simp) (by kernel_rfl) (by decide) (by decide +kernel) (by decide +kernel) (fun x w => rfl) h

theorem stage_r (hU : UniOk U) {w : Str} {ps : List (Spec.Sign × Str)} (h : SgBase U [] w ps) : Stage U GL_R_RE t!"$1&#174;" 15 w ps := by
  rw [R_shape]
  exact stage_bnd (m := .registered) hU (by decide) (by simp) (by kernel_rfl) (by decide) (by decide +kernel) (by decide +kernel) (fun x w => rfl) h

theorem stage_c (hU : UniOk U) {w : Str} {ps : List (Spec.Sign × Str)} (h : SgBase U [] w ps) : Stage U GL_C_RE t!"$1&#169;" 16 w ps := by
  rw [C_shape]
  exact stage_bnd (m := .copyright) hU (by decide) (by simp) (by kernel_rfl) (by decide) (by decide +kernel) (by decide +kernel) (fun x w => rfl) h

end Rustextile
