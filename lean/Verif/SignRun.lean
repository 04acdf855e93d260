import Verif.SignText

/-!
# Texts with signs in the automaton

No pattern other than those of the signs is found in such a text.
-/

namespace Rustextile

/-! ## The automaton -/

def letA : Alpha := ⟨inkA.ascii.filter (fun c => !digA.ascii.contains c && c != 'x' && c != 'X'), true⟩
def letB : Alpha := ⟨letA.ascii.filter (fun c => c != '/' && !Spec.isLowerLetter c), true⟩
def xA : Alpha := ⟨t!"xX", false⟩
def lowA : Alpha := ⟨t!"abcdefghijklmnopqrstuvwxyz", false⟩

deriving instance DecidableEq for Alpha

def sgFull : List (Alpha × Nat) := [(digA, 2), (letA, 1), (xA, 1), (oneA ' ', 3), (oneA '\n', 4)]
def sgAfterD : List (Alpha × Nat) := [(digA, 2), (letA, 1), (oneA ' ', 5), (oneA '\n', 4)]
def sgCommon : List (Alpha × Nat) := [(oneA '-', 10), (oneA '&', 12), (⟨t!"([", false⟩, 21)]
def sgShut : List (Alpha × Nat) := [(⟨t!"'\"", false⟩, 6)]
def sgOpens : List (Alpha × Nat) := [(⟨t!"'\"", false⟩, 7), (oneA '\'', 19)]

def sgM : Auto := [
  (true, sgFull ++ sgOpens ++ sgCommon),
  (true, sgFull ++ sgShut ++ sgCommon ++ [(oneA ' ', 17)]),
  (true, sgAfterD ++ sgShut ++ sgCommon ++ [(oneA ' ', 17)]),
  (true, sgFull ++ sgOpens ++ sgCommon ++ [(oneA ' ', 17)]),
  (true, sgFull ++ sgOpens ++ sgCommon),
  -- a space after a digit, a closing quotation mark or a mark in brackets
  (true, [(digA, 2), (letA, 1), (oneA ' ', 3), (oneA '\n', 4)] ++ sgOpens ++ sgCommon ++ [(oneA ' ', 17)]),
  -- after a closing quotation mark
  (true, sgAfterD),
  -- after an opening quotation mark, and one character later
  (false, [(digA, 9), (letA, 8), (xA, 8)]),
  (true, [(digA, 2), (letA, 1), (xA, 1), (oneA '\n', 4)] ++ sgShut ++ sgCommon),
  (true, [(digA, 2), (letA, 1), (oneA '\n', 4)] ++ sgShut ++ sgCommon),
  (false, [(oneA '-', 11)]),
  (true, sgFull),
  (true, sgFull ++ [(lowA, 13)]),
  (false, [(lowA, 13), (oneA ';', 14)]),
  (true, sgFull),
  (false, []),
  -- after a mark in brackets
  (true, [(digA, 2), (letB, 1), (oneA ' ', 5), (oneA '\n', 4)]),
  (false, [(oneA '-', 18)]),
  (false, [(oneA ' ', 3)]),
  (false, [(digA, 20)]),
  (false, [(digA, 2)]),
  (false, [(⟨t!"tT", false⟩, 22), (⟨t!"rRcCo", false⟩, 23), (⟨t!"13", false⟩, 24), (oneA '+', 26)]),
  (false, [(⟨t!"mM", false⟩, 23)]),
  (false, [(oneA ')', 6), (oneA ']', 16)]),
  (false, [(oneA '/', 25)]),
  (false, [(⟨t!"24", false⟩, 23)]),
  (false, [(oneA '/', 27)]),
  (false, [(oneA '-', 23)])]

set_option maxRecDepth 100000 in
theorem sgM_ok : sgM.wf = true ∧ earlyPatterns.all (sgM.avoids ·) = true ∧ sgM.avoids TABLE_RE = true ∧
    latePatterns.all (sgM.avoids ·) = true ∧ sgM.avoids NOTEDEF_RE = true ∧ sgM.avoids DIVIDER_RE = true ∧ sgM.avoids GL_DIM_RE = true := by
  decide +kernel

/-! ## Words -/

def sgStates : List Nat := [0, 1, 2, 3, 4, 5, 6, 7, 8, 9, 11, 12, 14, 16]

def nxt (q : Nat) (c : Char) : Nat :=
  if digA.ascii.contains c then (if q = 7 then 9 else 2)
  else if c = ' ' then (if q ∈ [2, 6, 16] then 5 else 3)
  else if c = '\n' then 4
  else if q = 7 then 8 else 1

/-- What can be read in the state. -/
structure SgFine (q : Nat) (w : Str) : Prop where
  mem : q ∈ sgStates
  times : q ∈ [2, 6, 9, 16] → Spec.NoTimes w
  spaced : q = 5 → ∀ x u, x = 'x' ∨ x = 'X' → w ≠ x :: u
  opened : q = 7 → ∃ c u, w = c :: u ∧ Spec.isLetterOrDigit c = true ∧ u.head? ≠ some ' '
  second : q ∈ [8, 9] → w.head? ≠ some ' '
  square : q = 16 → ∀ c u, w = c :: u → Spec.isLowerLetter c = false ∧ c ≠ '/'

theorem SgFine.easy {q : Nat} {w : Str} (h : q ∈ [0, 1, 3, 4, 11, 12, 14]) : SgFine q w := by
  simp at h
  rcases h with rfl | rfl | rfl | rfl | rfl | rfl | rfl <;> exact ⟨by decide, by simp, by simp, by simp, by simp, by simp⟩

theorem dig_mem {c : Char} (h : c ∈ digA.ascii) : Spec.isDecimal c = true := (by decide +kernel : ∀ c ∈ digA.ascii, Spec.isDecimal c = true) c h

theorem SgFine.step {U : Uni} {q : Nat} {c : Char} {w : Str} (h : SgFine q (c :: w)) (hp : Spec.Prose U.isLu (c :: w)) :
    (∃ e ∈ sgM.step q, e.1.Mem c ∧ e.2 = nxt q c) ∧ SgFine (nxt q c) w := by
  constructor
  · rcases prose_over hp c (by simp) with hc | hc
    · have key : ∀ q ∈ sgStates, ∀ c ∈ linesA.ascii, (¬ (q ∈ [2, 5, 6, 9, 16] ∧ c ∈ t!"xX")) → (¬ (q ∈ [7, 8, 9] ∧ c = ' ')) → (¬ (q = 7 ∧ c = '\n')) →
          (¬ (q = 16 ∧ (Spec.isLowerLetter c = true ∨ c = '/'))) → ∃ e ∈ sgM.step q, c ∈ e.1.ascii ∧ e.2 = nxt q c := by decide +kernel
      suffices h4 : ∃ e ∈ sgM.step q, c ∈ e.1.ascii ∧ e.2 = nxt q c by
        obtain ⟨e, he, h1, h2⟩ := h4
        exact ⟨e, he, .inl h1, h2⟩
      refine key q h.mem c hc ?_ ?_ ?_ ?_
      · rintro ⟨hq, hx⟩
        have hx' : c = 'x' ∨ c = 'X' := by simpa using hx
        by_cases h5 : q = 5
        · exact h.spaced h5 c w hx' rfl
        · exact ((h.times (by simp at hq ⊢; omega)) c w hx').1 rfl
      · rintro ⟨hq, rfl⟩
        by_cases h7 : q = 7
        · obtain ⟨d, u, e, hd, -⟩ := h.opened h7
          cases e; exact absurd hd (by decide)
        · exact h.second (by simp at hq ⊢; omega) rfl
      · rintro ⟨rfl, rfl⟩
        obtain ⟨d, u, e, hd, -⟩ := h.opened rfl
        cases e; exact absurd hd (by decide)
      · rintro ⟨rfl, hx⟩
        have := h.square rfl c w rfl
        rcases hx with hx | hx
        · rw [this.1] at hx; cases hx
        · exact this.2 hx
    · have key : ∀ q ∈ sgStates, ∃ e ∈ sgM.step q, e.1.other = true ∧ e.2 = if q = 7 then 8 else 1 := by decide +kernel
      obtain ⟨e, he, h1, h2⟩ := key q h.mem
      refine ⟨e, he, .inr ⟨h1, hc.2⟩, ?_⟩
      rw [h2]
      have n1 : c ∉ digA.ascii := fun hm => by
        have := (by decide +kernel : ∀ c ∈ digA.ascii, c.toNat < 128) c hm
        omega
      have n2 : c ≠ ' ' := by rintro rfl; exact absurd hc.2.1 (by decide)
      have n3 : c ≠ '\n' := by rintro rfl; exact absurd hc.2.1 (by decide)
      simp [nxt, n1, n2, n3]
  · unfold nxt
    have hdig : digA.ascii.contains c = true → Spec.NoTimes w := by
      intro hc x u hx
      have hd := dig_mem (by simpa using hc)
      have := hp.dims [] c x
      exact ⟨fun e => (this u hd hx).1 (by rw [e]; rfl), fun e => (this u hd hx).2 (by rw [e]; rfl)⟩
    split
    · rename_i hc
      split
      · rename_i h7
        subst h7
        obtain ⟨d, u, e, hd, hh⟩ := h.opened rfl
        cases e
        exact ⟨by decide, fun _ => hdig hc, by simp, by simp, fun _ => hh, by simp⟩
      · exact ⟨by decide, fun _ => hdig hc, by simp, by simp, by simp, by simp⟩
    · split
      · rename_i hsp
        subst hsp
        split
        · rename_i hq
          refine ⟨by decide, by simp, ?_, by simp, by simp, by simp⟩
          rintro - x u hx rfl
          exact (h.times (by simp at hq ⊢; omega) x u hx).2 rfl
        · exact SgFine.easy (by simp)
      · split
        · exact SgFine.easy (by simp)
        · split
          · rename_i h7
            subst h7
            obtain ⟨d, u, e, hd, hh⟩ := h.opened rfl
            cases e
            exact ⟨by decide, by simp, by simp, by simp, fun _ => hh, by simp⟩
          · exact SgFine.easy (by simp)

def walk (q : Nat) (w : Str) : Nat := w.foldl nxt q

theorem walk_run {U : Uni} {rest : Str} : ∀ {w : Str} {q : Nat}, SgFine q w → Spec.Prose U.isLu w → sgM.Run (walk q w) rest → sgM.Run q (w ++ rest)
  | [], _, _, _, h => h
  | c :: w, q, hf, hp, h => by
    obtain ⟨⟨e, he, hc, e2⟩, hf'⟩ := hf.step hp
    refine ⟨e, he, hc, ?_⟩
    rw [e2]
    exact walk_run hf' (Prose.tail (y := [c]) hp) h

theorem nxt_seven (q : Nat) (c : Char) : nxt q c ≠ 7 := by
  unfold nxt
  split
  · split <;> omega
  · split
    · split <;> omega
    · split
      · omega
      · split <;> omega

theorem walk_seven {q : Nat} {w : Str} (h : walk q w = 7) : w = [] ∧ q = 7 := by
  rcases List.eq_nil_or_concat w with rfl | ⟨u, c, rfl⟩
  · exact ⟨rfl, h⟩
  · exfalso
    rw [List.concat_eq_append, walk, List.foldl_append] at h
    exact nxt_seven _ c h

/-- The state tells the last character. -/
theorem walk_last {q : Nat} {u : Str} {c : Char} : (c = ' ' → walk q (u ++ [c]) ∈ [3, 5]) ∧ (c = '\n' → walk q (u ++ [c]) = 4) ∧
    (c ≠ ' ' ∧ c ≠ '\n' → walk q (u ++ [c]) ∈ [1, 2] ∨ (walk q (u ++ [c]) ∈ [8, 9] ∧ q = 7 ∧ u = [])) := by
  have e : walk q (u ++ [c]) = nxt (walk q u) c := by simp [walk]
  rw [e]
  refine ⟨?_, ?_, ?_⟩
  · rintro rfl
    unfold nxt
    rw [if_neg (by decide), if_pos rfl]
    split <;> simp
  · rintro rfl
    unfold nxt
    rw [if_neg (by decide), if_neg (by decide), if_pos rfl]
  · rintro ⟨h1, h2⟩
    by_cases h7 : walk q u = 7
    · right
      obtain ⟨hu, hq⟩ := walk_seven h7
      refine ⟨?_, hq, hu⟩
      unfold nxt
      rw [if_neg h1, if_neg h2, if_pos h7, if_pos h7]
      split <;> simp
    · left
      unfold nxt
      rw [if_neg h1, if_neg h2, if_neg h7, if_neg h7]
      split <;> simp

/-! ## Signs -/

/-- The text can be read from a state to another. -/
def readB (M : Auto) : Nat → Str → Nat → Bool
  | q, [], q' => q == q'
  | q, c :: w, q' => (M.step q).any (fun e => e.1.ascii.contains c && readB M e.2 w q')

theorem readB_run {M : Auto} {rest : Str} {q' : Nat} (hr : M.Run q' rest) : ∀ {w : Str} {q : Nat}, readB M q w q' = true → M.Run q (w ++ rest)
  | [], q, h => by
    simp [readB] at h; subst h; exact hr
  | c :: w, q, h => by
    simp only [readB, List.any_eq_true, Bool.and_eq_true, List.contains_iff_mem] at h
    obtain ⟨e, he, h1, h2⟩ := h
    exact ⟨e, he, .inl h1, readB_run hr h2⟩

/-- Where a sign can be read. -/
def signFrom : Spec.Sign → List Nat
  | .apostrophe | .closeSingle | .closeDouble => [1, 2, 8, 9]
  | .openSingle | .openDouble => [0, 3, 4, 5]
  | .decade _ => [3, 4, 5]
  | .enDash => [1, 2, 3, 5]
  | _ => [0, 1, 2, 3, 4, 5, 8, 9]

def signTo : Spec.Sign → Nat
  | .apostrophe | .closeSingle | .closeDouble => 6
  | .openSingle | .openDouble => 7
  | .decade _ => 2
  | .enDash => 3
  | .emDash => 11
  | .ellipsis => 1
  | .ampersand => 12
  | .entity _ => 14
  | .mark sq _ _ => if sq then 16 else 6

theorem digits_run {rest : Str} (hr : sgM.Run 2 rest) : ∀ {ds : Str}, (∀ c ∈ ds, Spec.isDecimal c = true) → sgM.Run 2 (ds ++ rest)
  | [], _ => hr
  | c :: ds, h => ⟨(digA, 2), by decide +kernel, digA_of (h c (by simp)), digits_run hr (fun x hx => h x (by simp [hx]))⟩

theorem lowA_of {c : Char} (h : Spec.isLowerLetter c = true) : lowA.Mem c := by
  left
  simp [Spec.isLowerLetter] at h
  have key : ∀ n ∈ List.range 128, 97 ≤ n ∧ n ≤ 122 → Char.ofNat n ∈ lowA.ascii := by decide +kernel
  have := key c.toNat (by simp; omega) h
  rwa [Char.ofNat_toNat] at this

theorem name_run {rest : Str} (hr : sgM.Run 14 rest) : ∀ {n : Str}, (∀ c ∈ n, Spec.isLowerLetter c = true) → sgM.Run 13 (n ++ ';' :: rest)
  | [], _ => ⟨(oneA ';', 14), by decide +kernel, oneA_mem _, hr⟩
  | c :: n, h => ⟨(lowA, 13), by decide +kernel, lowA_of (h c (by simp)), name_run hr (fun x hx => h x (by simp [hx]))⟩

/-- Where the reading of a sign ends, at the start or after the replacement of lone ampersands. -/
def signEnd (k : Nat) (s : Spec.Sign) : Nat := if k = 1 ∧ s = .ampersand then 14 else signTo s

theorem sign_run {k : Nat} (hk : k ≤ 1) {s : Spec.Sign} {b : Option Char} {a rest : Str} (hf : s.Fits b a) {q : Nat} (hq : q ∈ signFrom s)
    (hr : sgM.Run (signEnd k s) rest) : sgM.Run q (form k s ++ rest) := by
  rcases mem_constSigns s with h | ⟨ds, rfl⟩ | ⟨n, rfl⟩
  · have key : ∀ k ∈ [0, 1], ∀ s ∈ constSigns, ∀ q ∈ signFrom s, readB sgM q (form k s) (signEnd k s) = true := by decide +kernel
    exact readB_run hr (key k (by simp; omega) s h q hq)
  · have he : form k (.decade ds) = '\'' :: ds := by unfold form; rw [if_neg (by simp [signStage]; omega)]; rfl
    have hr2 : sgM.Run 2 rest := by simpa [signEnd, signTo] using hr
    obtain ⟨-, hlen, hd, -⟩ := hf
    rw [he]
    rcases ds with _ | ⟨d1, _ | ⟨d2, ds⟩⟩
    · simp at hlen
    · simp at hlen
    · have key : ∀ q ∈ [3, 4, 5], ((oneA '\'', 19) : Alpha × Nat) ∈ sgM.step q := by decide +kernel
      refine ⟨_, key q hq, oneA_mem _, ?_⟩
      refine ⟨(digA, 20), by decide +kernel, digA_of (hd d1 (by simp)), ?_⟩
      exact ⟨(digA, 2), by decide +kernel, digA_of (hd d2 (by simp)), digits_run hr2 (fun x hx => hd x (by simp [hx]))⟩
  · have hr2 : sgM.Run 14 rest := by simpa [signEnd, signTo] using hr
    rw [form_entity]
    obtain ⟨hne, hn⟩ := hf
    obtain ⟨x, u, rfl⟩ := List.exists_cons_of_ne_nil hne
    have key : ∀ q ∈ [0, 1, 2, 3, 4, 5, 8, 9], ((oneA '&', 12) : Alpha × Nat) ∈ sgM.step q := by decide +kernel
    refine ⟨_, key q hq, oneA_mem _, (lowA, 13), by decide +kernel, lowA_of (hn x (by simp)), ?_⟩
    have := name_run hr2 (n := u) (fun y hy => hn y (by simp [hy]))
    simpa using this

theorem NoTimes.left {v t : Str} (h : Spec.NoTimes (v ++ t)) : Spec.NoTimes v := by
  intro x u hx
  refine ⟨?_, ?_⟩
  · rintro rfl; exact (h x _ hx).1 rfl
  · rintro rfl; exact (h x _ hx).2 rfl

/-- What follows a sign can be read. -/
theorem fine_after {k : Nat} {s : Spec.Sign} {b : Option Char} {v t : Str} (hf : s.Fits b (v ++ t)) (hv : v = [] → t = []) : SgFine (signEnd k s) v := by
  unfold signEnd
  split
  · exact SgFine.easy (by simp)
  have six : ∀ {q}, q = 2 ∨ q = 6 → Spec.NoTimes (v ++ t) → SgFine q v := by
    rintro q (rfl | rfl) h <;> exact ⟨by decide, fun _ => NoTimes.left h, by simp, by simp, by simp, by simp⟩
  have seven : (∃ c u, v ++ t = c :: u ∧ Spec.isLetterOrDigit c = true ∧ u.head? ≠ some ' ') → SgFine 7 v := by
    rintro ⟨c, u, e, h1, h2⟩
    refine ⟨by decide, by simp, by simp, fun _ => ?_, by simp, by simp⟩
    cases v with
    | nil => rw [hv rfl] at e; cases e
    | cons d v =>
      obtain ⟨rfl, rfl⟩ := List.cons.inj e
      refine ⟨d, v, rfl, h1, ?_⟩
      cases v with
      | nil => simp
      | cons y v => simpa using h2
  cases s with
  | apostrophe => exact six (.inr rfl) hf.2.1
  | closeSingle => exact six (.inr rfl) hf.2.2
  | closeDouble => exact six (.inr rfl) hf.2.2
  | openSingle =>
    obtain ⟨c, u, e, h1, h2⟩ := hf.2
    exact seven ⟨c, u, e, by simp [Spec.isLetterOrDigit, h1], h2⟩
  | openDouble => exact seven hf.2
  | decade ds => exact six (.inl rfl) hf.2.2.2.2
  | mark sq cap m =>
    cases sq with
    | false => exact six (.inr rfl) hf.1
    | true =>
      refine ⟨by simp [signTo, sgStates], fun _ => NoTimes.left hf.1, by simp [signTo], by simp [signTo], by simp [signTo], fun _ c u e => hf.2.1 rfl c (u ++ t) (by rw [e]; rfl)⟩
  | _ => exact SgFine.easy (by simp [signTo])

/-- The state after a word allows the sign. -/
theorem sign_from {q : Nat} {w a : Str} {s : Spec.Sign} (hf : s.Fits w.getLast? a) (h0 : w = [] → q = 0)
    (h7 : q = 7 → ∀ c, w = [c] → s ≠ .enDash) : walk q w ∈ signFrom s := by
  rcases List.eq_nil_or_concat w with rfl | ⟨u, c, rfl⟩
  · have : walk q [] = 0 := h0 rfl
    rw [this]
    cases s with
    | apostrophe => obtain ⟨⟨c, e, -⟩, -⟩ := hf; cases e
    | closeSingle => obtain ⟨⟨c, e, -⟩, -⟩ := hf; cases e
    | closeDouble => obtain ⟨⟨c, e, -⟩, -⟩ := hf; cases e
    | decade ds => obtain ⟨⟨c, e, -⟩, -⟩ := hf; cases e
    | enDash => obtain ⟨⟨c, e, -⟩, -⟩ := hf; cases e
    | _ => simp [signFrom]
  · rw [List.concat_eq_append] at *
    rw [List.getLast?_concat] at hf
    obtain ⟨k1, k2, k3⟩ := walk_last (q := q) (u := u) (c := c)
    have hcase : (c = ' ' ∧ walk q (u ++ [c]) ∈ [3, 5]) ∨ (c = '\n' ∧ walk q (u ++ [c]) = 4) ∨
        (c ≠ ' ' ∧ c ≠ '\n' ∧ (walk q (u ++ [c]) ∈ [1, 2] ∨ (walk q (u ++ [c]) ∈ [8, 9] ∧ q = 7 ∧ u = []))) := by
      by_cases h1 : c = ' '
      · exact .inl ⟨h1, k1 h1⟩
      · by_cases h2 : c = '\n'
        · exact .inr (.inl ⟨h2, k2 h2⟩)
        · exact .inr (.inr ⟨h1, h2, k3 ⟨h1, h2⟩⟩)
    generalize walk q (u ++ [c]) = q' at hcase
    simp only [List.mem_cons, List.not_mem_nil, or_false] at hcase
    cases s with
    | apostrophe =>
      obtain ⟨⟨d, e, hd⟩, -⟩ := hf
      cases e
      rcases hcase with ⟨rfl, -⟩ | ⟨rfl, -⟩ | h
      · exact absurd hd (by decide)
      · exact absurd hd (by decide)
      · simp [signFrom]; omega
    | closeSingle =>
      obtain ⟨⟨d, e, hd⟩, -⟩ := hf
      cases e
      rcases hcase with h | h | h
      · exact absurd h.1 hd.1
      · exact absurd h.1 hd.2
      · simp [signFrom]; omega
    | closeDouble =>
      obtain ⟨⟨d, e, hd⟩, -⟩ := hf
      cases e
      rcases hcase with h | h | h
      · exact absurd h.1 hd.1
      · exact absurd h.1 hd.2
      · simp [signFrom]; omega
    | openSingle =>
      have := hf.1 c rfl
      rcases hcase with h | h | h
      · simp [signFrom]; omega
      · simp [signFrom]; omega
      · rcases this with e | e
        · exact absurd e h.1
        · exact absurd e h.2.1
    | openDouble =>
      have := hf.1 c rfl
      rcases hcase with h | h | h
      · simp [signFrom]; omega
      · simp [signFrom]; omega
      · rcases this with e | e
        · exact absurd e h.1
        · exact absurd e h.2.1
    | decade ds =>
      obtain ⟨⟨d, e, hd⟩, -⟩ := hf
      cases e
      rcases hcase with h | h | h
      · simp [signFrom]; omega
      · simp [signFrom]; omega
      · rcases hd with e | e
        · exact absurd e h.1
        · exact absurd e h.2.1
    | enDash =>
      obtain ⟨⟨d, e, hd⟩, -⟩ := hf
      cases e
      rcases hcase with h | h | h
      · simp [signFrom]; omega
      · exact absurd h.1 hd
      · rcases h.2.2 with h | ⟨-, hq, rfl⟩
        · simp [signFrom]; omega
        · exact absurd rfl (h7 hq c rfl)
    | _ => simp [signFrom]; rcases hcase with h | h | h <;> omega

theorem newlines_run : ∀ {n : Str} {q : Nat}, (∀ c ∈ n, c = '\n') → q ∈ sgStates → q ≠ 7 → sgM.Run q n
  | [], q, _, hq, h7 => (by decide +kernel : ∀ q ∈ sgStates, q ≠ 7 → sgM.final q = true) q hq h7
  | c :: n, q, hn, hq, h7 => by
    have := hn c (by simp)
    subst this
    obtain ⟨e, he, h1, h2⟩ := (by decide +kernel : ∀ q ∈ sgStates, q ≠ 7 → ∃ e ∈ sgM.step q, '\n' ∈ e.1.ascii ∧ e.2 = 4) q hq h7
    refine ⟨e, he, .inl h1, ?_⟩
    rw [h2]
    exact newlines_run (fun x hx => hn x (by simp [hx])) (by decide) (by decide)

theorem walk_mem {U : Uni} : ∀ {w : Str} {q : Nat}, SgFine q w → Spec.Prose U.isLu w → walk q w ∈ sgStates
  | [], _, h, _ => h.mem
  | c :: w, _, h, hp => walk_mem (w := w) (h.step hp).2 (Prose.tail (y := [c]) hp)

theorem signs_run {U : Uni} {k : Nat} (hk : k ≤ 1) {n : Str} (hn : ∀ c ∈ n, c = '\n') : ∀ {ps : List (Spec.Sign × Str)} {w : Str} {q : Nat}, Spec.Prose U.isLu w →
    (∀ p ∈ ps, Spec.Prose U.isLu p.2) → Spec.AllFit w.getLast? ps → SgFine q w → (ps ≠ [] → w = [] → q = 0) →
    (q = 7 → ∀ c, w = [c] → (w ++ Spec.partsSource ps).tail.head? ≠ some ' ') → sgM.Run q (w ++ (formText k ps ++ n))
  | [], w, q, hw, _, _, hf, _, _ => by
    have h7 : walk q w ≠ 7 := by
      intro e
      obtain ⟨rfl, rfl⟩ := walk_seven e
      obtain ⟨c, u, e, -⟩ := hf.opened rfl
      cases e
    exact walk_run hf hw (newlines_run hn (walk_mem hf hw) h7)
  | (s, v) :: ps, w, q, hw, ht, ha, hf, h0, h7 => by
    obtain ⟨ha1, ha2, ha3⟩ := ha
    have hv := ht (s, v) (by simp)
    have hnil : v = [] → Spec.partsSource ps = [] := by
      rintro rfl
      have : ps = [] := Classical.byContradiction (fun hp => ha2 hp rfl)
      subst this; rfl
    have hf' : SgFine (signEnd k s) v := fine_after ha1 hnil
    have hrec := signs_run hk hn (ps := ps) (w := v) (q := signEnd k s) hv (fun p hp => ht p (by simp [hp])) ha3 hf' (fun hp e => absurd e (ha2 hp)) ?_
    · rw [formText_cons]
      refine walk_run hf hw ?_
      have := sign_run hk ha1 (q := walk q w) (sign_from ha1 (h0 (by simp)) ?_) hrec
      · simpa using this
      · rintro hq c rfl rfl
        exact h7 hq c rfl rfl
    · intro hq c hc
      have hs : s = .openSingle ∨ s = .openDouble := by
        unfold signEnd at hq
        split at hq
        · cases hq
        · cases s with
          | openSingle => exact .inl rfl
          | openDouble => exact .inr rfl
          | mark sq cap m => cases sq <;> cases hq
          | _ => cases hq
      have : ∃ c u, v ++ Spec.partsSource ps = c :: u ∧ u.head? ≠ some ' ' := by
        rcases hs with rfl | rfl
        · obtain ⟨c, u, e, -, h⟩ := ha1.2; exact ⟨c, u, e, h⟩
        · obtain ⟨c, u, e, -, h⟩ := ha1.2; exact ⟨c, u, e, h⟩
      obtain ⟨c', u, e, h⟩ := this
      rw [e]; exact h

end Rustextile
