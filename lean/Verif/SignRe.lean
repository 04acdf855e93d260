import Verif.SpecSigns
import Verif.FootnoteDoc

/-!
# Where the patterns of the typographic signs match

Every pattern has a `core`: classes of characters one of which must be at the position itself or
after the next character.
-/

namespace Rustextile

/-- The text starts with characters of the classes. -/
def coreAt : List (Char → Bool) → Str → Bool
  | [], _ => true
  | _ :: _, [] => false
  | k :: K, c :: t => k c && coreAt K t

/-- The text or a longer one could start with characters of the classes. -/
def coreMay : List (Char → Bool) → Str → Bool
  | [], _ => true
  | _ :: _, [] => true
  | k :: K, c :: t => k c && coreMay K t

theorem coreMay_append : ∀ {K : List (Char → Bool)} {z rest : Str}, coreMay K z = false → coreAt K (z ++ rest) = false
  | [], _, _, h => by simp [coreMay] at h
  | _ :: _, [], _, h => by simp [coreMay] at h
  | k :: K, c :: z, rest, h => by
    simp only [coreMay, Bool.and_eq_false_iff] at h
    simp only [List.cons_append, coreAt, Bool.and_eq_false_iff]
    rcases h with h | h
    · exact .inl h
    · exact .inr (coreMay_append h)

/-- The classes are found nowhere from a character of the text on. -/
def inertF (K : List (Char → Bool)) : Str → Bool
  | [] => true
  | c :: f => !coreMay K (c :: f) && inertF K f

theorem inertF_of {k : Char → Bool} {K : List (Char → Bool)} : ∀ {f : Str}, (∀ c ∈ f, k c = false) → inertF (k :: K) f = true
  | [], _ => rfl
  | c :: f, h => by
    have := inertF_of (k := k) (K := K) (f := f) (fun x hx => h x (by simp [hx]))
    simp [inertF, coreMay, h c (by simp), this]

/-- Every match of the expression has the classes at its start or after one character. -/
def Near (U : Uni) (r : Re) (K : List (Char → Bool)) : Prop := ∀ w rest, r.lang U w → coreAt K (w ++ rest) = true ∨ coreAt K (w ++ rest).tail = true

theorem matchAt_none_of {U : Uni} {r : Re} {c : Cur} (h : ∀ w rest, c.rest = w ++ rest → ∀ s', ¬ Takes U r c.pre w rest [] s') : r.matchAt U c = none := by
  rw [Re.matchAt_eq]
  rcases c with ⟨pre, text⟩
  cases ha : r.all U ⟨pre, text⟩ [] with
  | nil => rfl
  | cons p l =>
    obtain ⟨w, rest, e, -, ht⟩ := Takes.of_mem (p := p) (by rw [ha]; simp)
    exact absurd ht (h w rest e _)

theorem Near.miss {U : Uni} {r : Re} {K : List (Char → Bool)} (h : Near U r K) {pre t : Str} (h1 : coreAt K t = false) (h2 : coreAt K t.tail = false) :
    r.matchAt U ⟨pre, t⟩ = none := by
  refine matchAt_none_of (fun w rest e s' ht => ?_)
  simp only at e
  rcases h w rest ht.lang with h | h
  · rw [← e, h1] at h; cases h
  · rw [← e, h2] at h; cases h

/-- The first class has no character of ordinary text. -/
def Outside (K : List (Char → Bool)) : Prop := ∃ k K', K = k :: K' ∧ ∀ c, linesA.Mem c → k c = false

theorem Outside.head {K : List (Char → Bool)} (h : Outside K) {c : Char} {t : Str} (hc : linesA.Mem c) : coreAt K (c :: t) = false := by
  obtain ⟨k, K', rfl, hk⟩ := h
  simp [coreAt, hk c hc]

theorem Outside.nil {K : List (Char → Bool)} (h : Outside K) : coreAt K [] = false := by
  obtain ⟨k, K', rfl, hk⟩ := h
  rfl

theorem outside_chr {l : List Char} (h : ∀ c ∈ l, c ∉ linesA.ascii ∧ c.toNat < 128) {K : List (Char → Bool)} : Outside ((fun c => l.contains c) :: K) := by
  refine ⟨_, _, rfl, fun c hc => ?_⟩
  cases hl : l.contains c with
  | false => rfl
  | true =>
    have := h c (by simpa using hl)
    exact absurd hc (Alpha.not_mem this.1 this.2)

theorem Near.skips {U : Uni} {r : Re} {K : List (Char → Bool)} (h : Near U r K) (hK : Outside K) {rest : Str} (hr : coreAt K rest = false) :
    ∀ {w pre : Str}, linesA.Over w → Skips U r pre w rest
  | [], _, _ => Skips.nil
  | c :: w, pre, hw => by
    refine Skips.cons (h.miss (hK.head (hw c (by simp))) ?_) (h.skips hK hr (fun x hx => hw x (by simp [hx])))
    cases w with
    | nil => exact hr
    | cons d w => exact hK.head (hw d (by simp))

theorem Near.skips_form {U : Uni} {r : Re} {K : List (Char → Bool)} (h : Near U r K) {rest : Str} (hr : coreAt K rest = false) :
    ∀ {f pre : Str}, inertF K f = true → Skips U r pre f rest
  | [], _, _ => Skips.nil
  | c :: f, pre, hf => by
    simp only [inertF, Bool.and_eq_true, Bool.not_eq_true'] at hf
    refine Skips.cons (h.miss ?_ ?_) (h.skips_form hr hf.2)
    · rw [← List.cons_append]; exact coreMay_append hf.1
    · cases f with
      | nil => exact hr
      | cons d f =>
        have := hf.2
        simp only [inertF, Bool.and_eq_true, Bool.not_eq_true'] at this
        change coreAt K ((d :: f) ++ rest) = false
        exact coreMay_append this.1

/-! ## Sequences of classes -/

def setsRe : List Str → Re
  | [] => .eps
  | [k] => .set false (k.map .chr)
  | k :: K => .seq (.set false (k.map .chr)) (setsRe K)

def setsK (L : List Str) : List (Char → Bool) := L.map (fun k c => k.contains c)

theorem evalSet_chrs {U : Uni} (k : Str) (c : Char) : evalSet U false (k.map .chr) c = k.contains c := by
  simp only [evalSet, List.any_map, Bool.bne_false]
  rw [Bool.eq_iff_iff]
  simp only [List.any_eq_true, List.contains_iff_mem, Function.comp, Item.eval, beq_iff_eq]
  constructor
  · rintro ⟨d, hd, e⟩
    have : c = d := Char.toNat_inj.1 e
    rwa [this]
  · intro h; exact ⟨c, h, rfl⟩

theorem lang_sets {U : Uni} : ∀ {L : List Str} {w rest : Str}, (setsRe L).lang U w → coreAt (setsK L) (w ++ rest) = true
  | [], _, _, _ => rfl
  | [k], w, rest, h => by
    obtain ⟨x, rfl, hx⟩ := lang_set.1 h
    rw [evalSet_chrs] at hx
    simp only [List.cons_append, setsK, List.map_cons, List.map_nil, coreAt, hx, Bool.and_self]
  | k :: k' :: L, w, rest, h => by
    obtain ⟨u, v, rfl, h1, h2⟩ := lang_seq.1 h
    obtain ⟨x, rfl, hx⟩ := lang_set.1 h1
    rw [evalSet_chrs] at hx
    have := lang_sets (L := k' :: L) (rest := rest) h2
    simp only [List.append_assoc, List.cons_append, List.nil_append, setsK, List.map_cons, coreAt, hx, Bool.true_and]
    simpa [setsK, coreAt] using this

theorem near_sets {U : Uni} {L : List Str} : Near U (setsRe L) (setsK L) := fun _ _ h => .inl (lang_sets h)

theorem near_grp {U : Uni} {a b : Re} {K : List (Char → Bool)} (ha : ∀ w, a.lang U w → w = [] ∨ ∃ x, w = [x])
    (hb : ∀ w rest, b.lang U w → coreAt K (w ++ rest) = true) : Near U (.seq a b) K := by
  intro w rest h
  obtain ⟨u, v, rfl, h1, h2⟩ := lang_seq.1 h
  rcases ha u h1 with rfl | ⟨x, rfl⟩
  · exact .inl (hb v rest h2)
  · exact .inr (hb v rest h2)

/-- The characters are of the classes, one each. -/
def IsOf : List Str → Str → Prop
  | [], w => w = []
  | k :: K, w => ∃ c v, w = c :: v ∧ c ∈ k ∧ IsOf K v

theorem heads_sets {U : Uni} : ∀ {L : List Str} {w pre rest : Str} {s : Caps}, IsOf L w → Heads U (setsRe L) pre w rest s s
  | [], w, _, _, _, h => by cases h; exact .eps
  | [k], w, _, _, _, ⟨c, v, e, hc, hv⟩ => by
    cases hv
    subst e
    exact .set (by rw [evalSet_chrs]; simpa using hc)
  | k :: k' :: L, w, pre, rest, s, ⟨c, v, e, hc, hv⟩ => by
    subst e
    exact Heads.seq (u := [c]) (.set (by rw [evalSet_chrs]; simpa using hc)) (heads_sets (L := k' :: L) hv)

/-! ## The patterns -/

def wrdRe : Re := .alt (.set false [.cls .L]) (.alt (.set false [.cls .M]) (.alt (.set false [.cls .N]) (.set false [.cls .Pc])))
def wsRe : Re := .set false [.cls .space]
def optWs : Re := .alt wsRe .eps
def bndRe : Re := .alt (.seq .wordb (.alt (.set false [.chr ' ']) .eps)) (.alt wsRe .bot)
def punctItems : List Item := (t! r##"-!"#$%&()*+,/:;<=>?@'[\].^_`{|}~"##).map .chr
def endRe : Re := .look false (.alt wsRe (.alt (.set false punctItems) (.alt (.set false [.chr '<']) .eot)))

theorem APOS_shape : GL_APOS_RE = .seq (.grp 1 (.alt wrdRe (.set false [.chr ')']))) (.seq (.set false [.chr '\'']) (.grp 2 wrdRe)) := by kernel_rfl
theorem SOPENB_shape : GL_SOPENB_RE = .seq (.grp 1 (.set false (t!"([{".map .chr))) (.seq (.set false [.chr '\'']) (.look false (.set false [.ncls .space]))) := by kernel_rfl
theorem DOPENB_shape : GL_DOPENB_RE = .seq (.grp 1 (.set false (t!"([{".map .chr))) (.seq (.set false [.chr '"']) (.look false (.set false [.ncls .space]))) := by kernel_rfl
theorem SCLOSE_shape : GL_SCLOSE_RE = .seq (.grp 1 (.set false [.ncls .space])) (.seq (.set false [.chr '\'']) endRe) := by kernel_rfl
theorem DCLOSE_shape : GL_DCLOSE_RE = .seq (.grp 1 (.set false [.ncls .space])) (.seq (.set false [.chr '"']) endRe) := by kernel_rfl
theorem SOPEN_shape : GL_SOPEN_RE = setsRe [t!"'"] := by kernel_rfl
theorem DOPEN_shape : GL_DOPEN_RE = setsRe [t!"\""] := by kernel_rfl
theorem ELL_shape : GL_ELLIPSIS_RE = .seq (.grp 1 (.alt (.set true [.chr '.']) .eps)) (setsRe [t!".", t!".", t!"."]) := by kernel_rfl
theorem AMP_shape : GL_AMP_RE = .seq (.grp 1 optWs) (.seq (.set false [.chr '&']) (.grp 2 wsRe)) := by kernel_rfl
theorem EM_shape : GL_EMDASH_RE = .seq (.grp 1 optWs) (.seq (.set false [.chr '-']) (.seq (.set false [.chr '-']) (.grp 2 optWs))) := by kernel_rfl
theorem EN_shape : GL_ENDASH_RE = setsRe [t!" ", t!"-", t!" "] := by kernel_rfl
theorem TM_shape : GL_TM_RE = .seq (.grp 1 bndRe) (setsRe [t!"([", t!"tT", t!"mM", t!"])"]) := by kernel_rfl
theorem R_shape : GL_R_RE = .seq (.grp 1 bndRe) (setsRe [t!"([", t!"rR", t!"])"]) := by kernel_rfl
theorem C_shape : GL_C_RE = .seq (.grp 1 bndRe) (setsRe [t!"([", t!"cC", t!"])"]) := by kernel_rfl
theorem HALF_shape : GL_12_RE = setsRe [t!"([", t!"1", t!"/", t!"2", t!"])"] := by kernel_rfl
theorem QUARTER_shape : GL_14_RE = setsRe [t!"([", t!"1", t!"/", t!"4", t!"])"] := by kernel_rfl
theorem THREE_shape : GL_34_RE = setsRe [t!"([", t!"3", t!"/", t!"4", t!"])"] := by kernel_rfl
theorem DEG_shape : GL_DEG_RE = setsRe [t!"([", t!"o", t!"])"] := by kernel_rfl
theorem PM_shape : GL_PM_RE = setsRe [t!"([", t!"+", t!"/", t!"-", t!"])"] := by kernel_rfl

def lettersItems : List Item := [.range 'a' 'z', .range 'A' 'Z', .chr '\u212A', .chr '\u017F']
def decadeNot : Re := .look true (.seq (.alt (.set false [.chr '.']) .eps) (.seq (.star false (.set false
    [.chr '(', .chr '?', .chr ':', .cls .L, .chr '|', .cls .M, .chr '|', .cls .N, .chr '|', .cls .Pc, .chr ')'])) (.set false [.chr '\''])))
theorem DECADE_shape : GL_88_RE = .seq (.grp 1 wsRe) (.seq (.set false [.chr '\'']) (.seq (.grp 2 (.seq (.seq (.set false [.cls .digit])
    (.star true (.set false [.cls .digit]))) (.alt wrdRe .eps))) (.seq .wordb decadeNot))) := by kernel_rfl
def entRe : Re := .seq (.set false lettersItems) (.seq (.star true (.set false (lettersItems ++ [.range '0' '9']))) (.set false [.chr ';']))
def hexItems : List Item := [.range 'a' 'f', .range 'A' 'F', .range '0' '9']
theorem LONE_shape : LONE_AMP_RE = .seq (.set false [.chr '&']) (.look true (.alt (.seq (.set false [.chr '#']) (.seq (.seq (.set false [.range '0' '9'])
    (.star true (.set false [.range '0' '9']))) (.set false [.chr ';']))) (.alt (.seq (.set false [.chr '#']) (.seq (.set false [.chr 'x', .chr 'X'])
    (.seq (.seq (.set false hexItems) (.star true (.set false hexItems))) (.set false [.chr ';'])))) entRe))) := by kernel_rfl

/-! ## Matches -/

theorem set_none {U : Uni} {n : Bool} {it : List Item} {pre t : Str} {c : Char} {s : Caps} (h : evalSet U n it c = false) :
    (Re.set n it).all U ⟨pre, c :: t⟩ s = [] := by simp [Re.all, h]

theorem set_end {U : Uni} {n : Bool} {it : List Item} {pre : Str} {s : Caps} : (Re.set n it).all U ⟨pre, []⟩ s = [] := by simp [Re.all]

theorem letter_ascii {c : Char} (h : Spec.isLetterOrDigit c = true) : c.toNat < 128 ∧ (isUp c || isLow c || isDig c) = true := by
  simp [Spec.isLetterOrDigit, Spec.isLetter, Spec.isDecimal] at h
  refine ⟨by omega, ?_⟩
  simp [isUp, isLow, isDig]
  omega

/-- A letter, a mark, a number or a connector. -/
def wordy (U : Uni) (c : Char) : Bool := U.isL c || U.isM c || U.isN c || U.isPc c

theorem wrd_lang {U : Uni} {w : Str} (h : wrdRe.lang U w) : ∃ c, w = [c] ∧ wordy U c = true := by
  simp only [wrdRe, lang_alt, lang_set] at h
  rcases h with ⟨c, rfl, h⟩ | ⟨c, rfl, h⟩ | ⟨c, rfl, h⟩ | ⟨c, rfl, h⟩ <;>
    refine ⟨c, rfl, ?_⟩ <;> simp [evalSet, Item.eval, UC.eval] at h <;> simp [wordy, h]

theorem heads_wrd {U : Uni} (hU : UniOk U) {c : Char} (h : Spec.isLetterOrDigit c = true) {pre rest : Str} {s : Caps} : Heads U wrdRe pre [c] rest s s := by
  obtain ⟨h1, h2⟩ := letter_ascii h
  have e1 := hU.letter c h1
  have e2 := hU.mark c h1
  have e3 := hU.num c h1
  unfold wrdRe
  by_cases hl : U.isL c = true
  · exact .left (.set (by simp [evalSet, Item.eval, UC.eval, hl]))
  · have hd : isDig c = true := by
      rw [e1] at hl
      cases hq : isDig c <;> simp_all
    refine .right (set_none (by simp [evalSet, Item.eval, UC.eval, hl])) (.right (set_none (by simp [evalSet, Item.eval, UC.eval, e2])) (.left (.set ?_)))
    simp [evalSet, Item.eval, UC.eval, e3, hd]

theorem wordy_ascii {U : Uni} (hU : UniOk U) {c : Char} (h : c.toNat < 128) : wordy U c = (isUp c || isLow c || isDig c || c == '_') := by
  simp [wordy, hU.letter c h, hU.mark c h, hU.num c h, hU.conn c h]

theorem scan_hit {U : Uni} {r : Re} {tm pre w rest o out : Str} {s : Caps} (h : Heads U r pre w rest [] s) (hw : w ≠ []) (ht : templ tm w s = o)
    (hs : Scan U r (templ tm) (w.reverse ++ pre) rest out) : Scan U r (templ tm) pre (w ++ rest) (o ++ out) := by
  subst ht
  exact Scan.hit h.matchAt hw hs

theorem apos_hit {U : Uni} (hU : UniOk U) {pre rest : Str} {a b : Char} (ha : Spec.isLetterOrDigit a = true) (hb : Spec.isLetterOrDigit b = true) :
    Heads U GL_APOS_RE pre [a, '\'', b] rest [] [(2, [b]), (1, [a])] := by
  rw [APOS_shape]
  exact Heads.seq (u := [a]) (.grp (.left (heads_wrd hU ha))) (Heads.seq (u := ['\'']) .chr (.grp (heads_wrd hU hb)))

theorem apos_takes {U : Uni} {pre w rest : Str} {s s' : Caps} (h : Takes U GL_APOS_RE pre w rest s s') :
    ∃ a b, w = [a, '\'', b] ∧ (wordy U a = true ∨ a = ')') ∧ wordy U b = true := by
  have hl := h.lang
  rw [APOS_shape] at hl
  simp only [lang_seq, lang_grp, lang_alt, lang_chr] at hl
  obtain ⟨_, _, rfl, h1, _, _, rfl, rfl, h2⟩ := hl
  obtain ⟨b, rfl, hb⟩ := wrd_lang h2
  rcases h1 with h1 | rfl
  · obtain ⟨a, rfl, ha⟩ := wrd_lang h1; exact ⟨a, b, rfl, .inl ha, hb⟩
  · exact ⟨_, b, rfl, .inr rfl, hb⟩

theorem apos_near {U : Uni} : Near U GL_APOS_RE (setsK [t!"'"]) := by
  rw [APOS_shape]
  refine near_grp ?_ ?_
  · intro w h
    rcases lang_alt.1 (lang_grp.1 h) with h | h
    · obtain ⟨c, rfl, -⟩ := wrd_lang h; exact .inr ⟨c, rfl⟩
    · obtain ⟨c, rfl, -⟩ := lang_set.1 h; exact .inr ⟨c, rfl⟩
  · intro w rest h
    obtain ⟨u, v, rfl, h1, -⟩ := lang_seq.1 h
    rw [lang_chr.1 h1]; rfl

theorem near_quote {U : Uni} {q : Char} {a : List Item} {n : Bool} {r : Re} : Near U (.seq (.grp 1 (.set n a)) (.seq (.set false [.chr q]) r)) (setsK [[q]]) := by
  refine near_grp ?_ ?_
  · intro w h
    obtain ⟨c, rfl, -⟩ := lang_set.1 (lang_grp.1 h); exact .inr ⟨c, rfl⟩
  · intro w rest h
    obtain ⟨u, v, rfl, h1, -⟩ := lang_seq.1 h
    rw [lang_chr.1 h1]; simp [setsK, coreAt]

theorem quote_takes {U : Uni} {q : Char} {a : List Item} {n : Bool} {r : Re} {pre w rest : Str} {s s' : Caps}
    (h : Takes U (.seq (.grp 1 (.set n a)) (.seq (.set false [.chr q]) r)) pre w rest s s') :
    ∃ c v, w = c :: q :: v ∧ evalSet U n a c = true ∧ Takes U r (q :: c :: pre) v rest ((1, [c]) :: s) s' := by
  obtain ⟨u, v, s1, rfl, h1, h2⟩ := h.seq
  obtain ⟨s2, h3, rfl⟩ := h1.grp
  obtain ⟨c, rfl, hc, rfl⟩ := h3.set
  obtain ⟨u, v, s1, rfl, h4, h5⟩ := h2.seq
  obtain ⟨rfl, rfl⟩ := h4.chr
  exact ⟨c, v, rfl, hc, h5⟩

theorem heads_end {U : Uni} {pre rest : Str} {s : Caps} (h : Spec.StartsIn t!" \n,./" rest) : Heads U endRe pre [] rest s s := by
  unfold endRe
  refine ⟨[], ?_⟩
  cases rest with
  | nil => simp [Re.all, wsRe]
  | cons c t =>
    have hc := h c t rfl
    have : evalSet U false [.cls .space] c = true ∨ evalSet U false punctItems c = true := by
      simp at hc
      rcases hc with rfl | rfl | rfl | rfl | rfl
      · exact .inl rfl
      · exact .inl rfl
      · exact .inr rfl
      · exact .inr rfl
      · exact .inr rfl
    rcases this with h | h
    · simp [Re.all, wsRe, h]
    · by_cases h' : evalSet U false [.cls .space] c = true
      · simp [Re.all, wsRe, h']
      · simp [Re.all, wsRe, h, h']

theorem quote_hit {U : Uni} {q c : Char} {pre rest : Str} (hc : isWs c = false) (h : Spec.StartsIn t!" \n,./" rest) :
    Heads U (.seq (.grp 1 (.set false [.ncls .space])) (.seq (.set false [.chr q]) endRe)) pre [c, q] rest [] [(1, [c])] := by
  refine Heads.seq (u := [c]) (.grp (.set ?_)) (Heads.seq (u := [q]) (v := []) .chr (heads_end h))
  simp [evalSet, Item.eval, UC.eval, hc]

theorem opts_lang {U : Uni} {n : Bool} {a : List Item} {w : Str} (h : (Re.alt (.set n a) .eps).lang U w) : w = [] ∨ ∃ x, w = [x] := by
  rcases lang_alt.1 h with h | h
  · obtain ⟨c, rfl, -⟩ := lang_set.1 h; exact .inr ⟨c, rfl⟩
  · exact .inl h

theorem ell_near {U : Uni} : Near U GL_ELLIPSIS_RE (setsK [t!".", t!".", t!"."]) := by
  rw [ELL_shape]
  exact near_grp (fun w h => opts_lang h) (fun w rest h => lang_sets h)

theorem ell_hit {U : Uni} {pre x rest : Str} (hx : x = [] ∨ ∃ c, x = [c] ∧ c ≠ '.') :
    Heads U GL_ELLIPSIS_RE pre (x ++ t!"...") rest [] [(1, x)] := by
  rw [ELL_shape]
  refine Heads.seq (.grp ?_) (heads_sets ⟨_, _, rfl, by simp, _, _, rfl, by simp, _, _, rfl, by simp, rfl⟩)
  rcases hx with rfl | ⟨c, rfl, hc⟩
  · exact .right (set_none rfl) .eps
  · refine .left (.set ?_)
    have : c.toNat ≠ '.'.toNat := fun e => hc (Char.toNat_inj.1 e)
    simp [evalSet, Item.eval]
    exact this

theorem amp_near {U : Uni} : Near U GL_AMP_RE [fun c => t!"&".contains c, isWs] := by
  rw [AMP_shape]
  refine near_grp (fun w h => opts_lang h) (fun w rest h => ?_)
  obtain ⟨u, v, rfl, h1, h2⟩ := lang_seq.1 h
  obtain ⟨x, rfl, hx⟩ := lang_set.1 (lang_grp.1 h2)
  rw [lang_chr.1 h1]
  simp [coreAt]
  simpa [evalSet, Item.eval, UC.eval] using hx

theorem em_near {U : Uni} : Near U GL_EMDASH_RE (setsK [t!"-", t!"-"]) := by
  rw [EM_shape]
  refine near_grp (fun w h => opts_lang h) (fun w rest h => ?_)
  obtain ⟨u, v, rfl, h1, h2⟩ := lang_seq.1 h
  obtain ⟨u', v', rfl, h3, h4⟩ := lang_seq.1 h2
  rw [lang_chr.1 h1, lang_chr.1 h3]
  rfl

theorem heads_optWs {U : Uni} {pre x rest : Str} {s : Caps} (hx : (x = [] ∧ ∀ c u, rest = c :: u → isWs c = false) ∨ ∃ c, x = [c] ∧ isWs c = true) :
    Heads U optWs pre x rest s s := by
  unfold optWs wsRe
  rcases hx with ⟨rfl, hr⟩ | ⟨c, rfl, hc⟩
  · refine .right ?_ .eps
    cases rest with
    | nil => exact set_end
    | cons c u => exact set_none (by simp [evalSet, Item.eval, UC.eval, hr c u rfl])
  · exact .left (.set (by simp [evalSet, Item.eval, UC.eval, hc]))

theorem em_hit {U : Uni} {pre x y rest : Str} (hx : x = [] ∨ ∃ c, x = [c] ∧ isWs c = true)
    (hy : (y = [] ∧ ∀ c u, rest = c :: u → isWs c = false) ∨ ∃ c, y = [c] ∧ isWs c = true) :
    Heads U GL_EMDASH_RE pre (x ++ (t!"--" ++ y)) rest [] [(2, y), (1, x)] := by
  rw [EM_shape]
  refine Heads.seq (.grp (heads_optWs ?_)) (Heads.seq (u := ['-']) .chr (Heads.seq (u := ['-']) .chr (.grp (heads_optWs hy))))
  rcases hx with rfl | hx
  · exact .inl ⟨rfl, by intro c u e; cases e; decide⟩
  · exact .inr hx

theorem en_near {U : Uni} : Near U GL_ENDASH_RE (setsK [t!"-", t!" "]) := by
  rw [EN_shape]
  intro w rest h
  obtain ⟨u, v, rfl, h1, h2⟩ := lang_seq.1 h
  obtain ⟨x, rfl, -⟩ := lang_set.1 h1
  have := lang_sets (L := [t!"-", t!" "]) (rest := rest) h2
  right
  simpa using this

theorem bnd_lang {U : Uni} {w : Str} (h : bndRe.lang U w) : w = [] ∨ ∃ x, w = [x] := by
  simp only [bndRe, wsRe, lang_alt, lang_seq, lang_chr, lang_set, lang_bot, lang_eps] at h
  rcases h with ⟨u, v, rfl, h1, h2⟩ | ⟨x, rfl, -⟩ | rfl
  · have : u = [] := h1
    subst this
    rcases h2 with ⟨x, rfl, -⟩ | rfl
    · exact .inr ⟨_, rfl⟩
    · exact .inl rfl
  · exact .inr ⟨_, rfl⟩
  · exact .inl rfl

theorem bnd_near {U : Uni} {L : List Str} : Near U (.seq (.grp 1 bndRe) (setsRe L)) (setsK L) :=
  near_grp (fun _ h => bnd_lang h) (fun _ _ h => lang_sets h)


theorem Heads.grp_right {U : Uni} {n : Nat} {a b c : Re} {pre w rest : Str} {s s' : Caps} (hn : (Re.seq (.grp n a) c).all U ⟨pre, w ++ rest⟩ s = [])
    (h : Heads U (.seq (.grp n b) c) pre w rest s s') : Heads U (.seq (.grp n (.alt a b)) c) pre w rest s s' := by
  obtain ⟨l, hl⟩ := h
  refine ⟨l, ?_⟩
  simp only [Re.all, List.map_append, List.flatMap_append] at hn hl ⊢
  rw [hn, hl]; rfl

/-- The pattern of a sign in brackets before which something is taken. -/
theorem bnd_hit {U : Uni} (hU : UniOk U) {pre x rest f : Str} {L : List Str} (hf : IsOf (t!"([" :: L) f)
    (hx : (x = [] ∧ (pre = [] ∨ ∃ c p, pre = c :: p ∧ Spec.isLetterOrDigit c = true)) ∨ x = [' '] ∨ x = ['\n']) :
    Heads U (.seq (.grp 1 bndRe) (setsRe (t!"([" :: L))) pre (x ++ f) rest [] [(1, x)] := by
  have hset := fun p => heads_sets (U := U) (pre := p) (rest := rest) (s := [(1, x)]) hf
  obtain ⟨b, v, rfl, hb, hv⟩ := hf
  have hw : U.isWord b = false ∧ isWs b = false ∧ evalSet U false [.chr ' '] b = false := by
    simp at hb
    rcases hb with rfl | rfl <;> exact ⟨by rw [hU.word _ (by decide)]; rfl, rfl, rfl⟩
  rcases hx with ⟨rfl, h⟩ | rfl | rfl
  · refine Heads.seq (.grp ?_) (hset _)
    unfold bndRe
    rcases h with rfl | ⟨c, p, rfl, hc⟩
    · refine .right ?_ (.right ?_ .bot)
      · simp [Re.all, atWordB, hw.1]
      · exact set_none (by simp [evalSet, Item.eval, UC.eval, hw.2.1])
    · obtain ⟨h1, h2⟩ := letter_ascii hc
      refine .left (Heads.seq (u := []) (v := []) ⟨[], ?_⟩ (.right (set_none hw.2.2) .eps))
      have : U.isWord c = true := by rw [hU.word c h1, h2]; rfl
      simp [Re.all, atWordB, hw.1, this]
  · refine Heads.seq (.grp ?_) (hset _)
    unfold bndRe
    by_cases hp : atWordB U ⟨pre, ' ' :: ((b :: v) ++ rest)⟩ = true
    · exact .left (Heads.seq (u := []) (v := [' ']) ⟨[], by simpa [Re.all] using hp⟩ (.left .chr))
    · refine .right ?_ (.left (.set rfl))
      have : atWordB U ⟨pre, ' ' :: (b :: (v ++ rest))⟩ = false := by simpa using hp
      simp [Re.all, this]
  · unfold bndRe
    refine Heads.grp_right ?_ (Heads.seq (.grp (.left (.set rfl))) (hset _))
    cases ha : ((Re.seq (.grp 1 (.seq .wordb (.alt (.set false [.chr ' ']) .eps))) (setsRe (t!"([" :: L))).all U ⟨pre, (['\n'] ++ b :: v) ++ rest⟩ []) with
    | nil => rfl
    | cons p l =>
      exfalso
      obtain ⟨w, r', e, -, ht⟩ := Takes.of_mem (p := p) (by rw [ha]; simp)
      obtain ⟨u1, u2, rfl, h1, h2⟩ := lang_seq.1 ht.lang
      have h3 := lang_sets (rest := r') h2
      obtain ⟨u3, u4, rfl, h4, h5⟩ := lang_seq.1 (lang_grp.1 h1)
      have h4 : u3 = [] := h4
      subst h4
      rcases lang_alt.1 h5 with h5 | h5
      · rw [lang_chr.1 h5] at e; simp at e
      · have h5 : u4 = [] := h5
        subst h5
        simp only [List.nil_append] at e
        rw [← e] at h3
        simp [setsK, coreAt] at h3


theorem decade_near {U : Uni} : Near U GL_88_RE (setsK [t!"'"]) := by
  rw [DECADE_shape]
  exact near_quote

theorem decade_takes {U : Uni} {pre w rest : Str} {s s' : Caps} (h : Takes U GL_88_RE pre w rest s s') :
    ∃ c d v, w = c :: '\'' :: d :: v ∧ isWs c = true ∧ U.isNd d = true := by
  rw [DECADE_shape] at h
  obtain ⟨c, v, rfl, hc, h⟩ := quote_takes h
  obtain ⟨u1, u2, h1, h2, -⟩ := lang_seq.1 h.lang
  obtain ⟨u3, u4, h3, h4, -⟩ := lang_seq.1 (lang_grp.1 h2)
  obtain ⟨u5, u6, h5, h6, -⟩ := lang_seq.1 h4
  obtain ⟨d, h7, hd⟩ := lang_set.1 h6
  subst h7 h5 h3 h1
  exact ⟨c, d, _, rfl, by simpa [evalSet, Item.eval, UC.eval] using hc, by simpa [evalSet, Item.eval, UC.eval] using hd⟩

theorem gap_ascii {U : Uni} (hU : UniOk U) {c : Char} (hc : c ∈ t!" \n,./") : wordy U c = false ∧ U.isWord c = false ∧ c ≠ '\'' ∧ U.isNd c = false := by
  simp at hc
  rcases hc with rfl | rfl | rfl | rfl | rfl <;>
    exact ⟨by rw [wordy_ascii hU (by decide)]; rfl, by rw [hU.word _ (by decide)]; rfl, by decide, by rw [hU.dec _ (by decide)]; rfl⟩

theorem wrd_none {U : Uni} (hU : UniOk U) {pre rest : Str} {s : Caps} (h : Spec.StartsIn t!" \n,./" rest) : wrdRe.all U ⟨pre, rest⟩ s = [] := by
  cases ha : wrdRe.all U ⟨pre, rest⟩ s with
  | nil => rfl
  | cons p l =>
    exfalso
    obtain ⟨w, r', e, -, ht⟩ := Takes.of_mem (p := p) (by rw [ha]; simp)
    obtain ⟨c, rfl, hc⟩ := wrd_lang ht.lang
    have := (gap_ascii hU (h c r' e)).1
    rw [this] at hc; cases hc

theorem look_none {U : Uni} {r : Re} {c : Cur} {s : Caps} (h : r.all U c s = []) : (Re.look true r).all U c s = [(c, s)] := by
  simp [Re.all, h]

theorem look_some {U : Uni} {r : Re} {c : Cur} {s : Caps} (h : r.all U c s ≠ []) : (Re.look true r).all U c s = [] := by
  cases hr : r.all U c s with
  | nil => exact absurd hr h
  | cons p l => simp [Re.all, hr]

theorem decade_hit {U : Uni} (hU : UniOk U) {pre ds rest : Str} {c : Char} (hc : isWs c = true) (hne : ds ≠ []) (hd : ∀ d ∈ ds, Spec.isDecimal d = true)
    (hr : Spec.StartsIn t!" \n," rest) : Heads U GL_88_RE pre (c :: '\'' :: ds) rest [] [(2, ds), (1, [c])] := by
  have hr' : Spec.StartsIn t!" \n,./" rest := fun x u e => by have := hr x u e; simp at this ⊢; rcases this with h | h | h <;> simp [h]
  have hdig : ∀ d ∈ ds, evalSet U false [.cls .digit] d = true := by
    intro d hm
    have h := hd d hm
    simp only [Spec.isDecimal, Bool.and_eq_true, decide_eq_true_eq] at h
    have h1 := hU.dec d (by omega)
    simp [evalSet, Item.eval, UC.eval, h1, isDig, h]
  rw [DECADE_shape]
  refine Heads.seq (u := [c]) (.grp (.set (by simp [evalSet, Item.eval, UC.eval, hc]))) (Heads.seq (u := ['\'']) .chr ?_)
  have hg : Heads U (.seq (.seq (.set false [.cls .digit]) (.star true (.set false [.cls .digit]))) (.alt wrdRe .eps)) (['\''].reverse ++ ([c].reverse ++ pre)) (ds ++ []) rest [(1, [c])] [(1, [c])] := by
    refine Heads.seq (Heads.plus hne hdig ?_) (.right (wrd_none hU hr') .eps)
    intro x hx
    simp only [List.nil_append] at hx
    obtain ⟨u, rfl⟩ : ∃ u, rest = x :: u := by
      cases rest with
      | nil => cases hx
      | cons a u => cases hx; exact ⟨u, rfl⟩
    have := (gap_ascii hU (hr' x u rfl)).2.2.2
    simp [evalSet, Item.eval, UC.eval, this]
  rw [List.append_nil] at hg
  have := Heads.seq (u := ds) (v := []) (rest := rest) (b := .seq .wordb decadeNot) (s' := [(2, ds), (1, [c])]) (.grp (n := 2) hg) ?_
  · simpa using this
  · refine Heads.seq (u := []) (v := []) (s1 := [(2, ds), (1, [c])]) ⟨[], ?_⟩ ⟨[], ?_⟩
    · have hb : atWordB U ⟨ds.reverse ++ ('\'' :: c :: pre), rest⟩ = true := by
        rcases List.eq_nil_or_concat ds with rfl | ⟨u, d, rfl⟩
        · exact absurd rfl hne
        · have h := hd d (by simp)
          simp only [Spec.isDecimal, Bool.and_eq_true, decide_eq_true_eq] at h
          have h1 : U.isWord d = true := by
            rw [hU.word d (by omega)]
            simp [isUp, isLow, isDig, h]
          cases rest with
          | nil => simp [atWordB, h1]
          | cons x v => simp [atWordB, h1, (gap_ascii hU (hr' x v rfl)).2.1]
      simpa [Re.all] using hb
    · unfold decadeNot
      have : ∀ p s, (Re.seq (.alt (.set false [.chr '.']) .eps) (.seq (.star false (.set false
          [.chr '(', .chr '?', .chr ':', .cls .L, .chr '|', .cls .M, .chr '|', .cls .N, .chr '|', .cls .Pc, .chr ')'])) (.set false [.chr '\'']))).all U ⟨p, rest⟩ s = [] := by
        intro p s
        generalize hR : (Re.seq (.alt (.set false [.chr '.']) .eps) (.seq (.star false (.set false
          [.chr '(', .chr '?', .chr ':', .cls .L, .chr '|', .cls .M, .chr '|', .cls .N, .chr '|', .cls .Pc, .chr ')'])) (.set false [.chr '\'']))) = R
        cases ha : R.all U ⟨p, rest⟩ s with
        | nil => rfl
        | cons q l =>
          exfalso
          obtain ⟨w, r', e, -, ht⟩ := Takes.of_mem (p := q) (by rw [ha]; simp)
          rw [← hR] at ht
          obtain ⟨u1, u2, e1, h1, h2⟩ := lang_seq.1 ht.lang
          obtain ⟨u3, u4, e2, h3, h4⟩ := lang_seq.1 h2
          rw [lang_chr.1 h4] at e2
          rw [lang_star_set] at h3
          subst e2 e1
          rcases lang_alt.1 h1 with h1 | h1
          · rw [lang_chr.1 h1] at e
            have := hr _ _ e
            revert this; decide
          · have h1 : u1 = [] := h1
            subst h1
            cases u3 with
            | nil => have := hr _ _ e; revert this; decide
            | cons x u3 =>
              have hx := h3 x (by simp)
              have := hr _ _ e
              simp at this
              have hn : x.toNat < 128 := by rcases this with rfl | rfl | rfl <;> decide
              simp only [evalSet, List.any_cons, List.any_nil, Item.eval, UC.eval, hU.letter x hn, hU.mark x hn, hU.num x hn, hU.conn x hn] at hx
              revert hx
              rcases this with rfl | rfl | rfl <;> decide
      exact look_none (this _ _)


theorem lone_near {U : Uni} : Near U LONE_AMP_RE (setsK [t!"&"]) := by
  rw [LONE_shape]
  intro w rest h
  obtain ⟨u, v, rfl, h1, h2⟩ := lang_seq.1 h
  rw [lang_chr.1 h1]
  exact .inl (by simp [setsK, coreAt])

/-- An ampersand is alone if the text after it is not a name and a semicolon. -/
theorem lone_hit {U : Uni} {pre rest : Str} (h1 : rest.head? ≠ some '#')
    (h2 : ∀ l r, rest = l ++ ';' :: r → ∃ c ∈ l, c ∈ t!"'\".&- ([") :
    Heads U LONE_AMP_RE pre ['&'] rest [] [] := by
  rw [LONE_shape]
  refine Heads.seq (u := ['&']) (v := []) .chr ⟨[], ?_⟩
  refine look_none ?_
  generalize hR : Re.alt _ _ = R
  cases ha : R.all U ⟨['&'].reverse ++ pre, rest⟩ [] with
  | nil => exact ha
  | cons q l =>
    exfalso
    obtain ⟨w, r', e, -, ht⟩ := Takes.of_mem (p := q) (by rw [ha]; simp)
    rw [← hR] at ht
    have hl := ht.lang
    rw [lang_alt, lang_alt] at hl
    rcases hl with hl | hl | hl
    · obtain ⟨u, v, rfl, h3, -⟩ := lang_seq.1 hl
      rw [lang_chr.1 h3] at e; rw [e] at h1; exact h1 rfl
    · obtain ⟨u, v, rfl, h3, -⟩ := lang_seq.1 hl
      rw [lang_chr.1 h3] at e; rw [e] at h1; exact h1 rfl
    · obtain ⟨u, v, rfl, h3, h4⟩ := lang_seq.1 hl
      obtain ⟨x, rfl, hx⟩ := lang_set.1 h3
      obtain ⟨u, v, rfl, h5, h6⟩ := lang_seq.1 h4
      rw [lang_star_set] at h5
      rw [lang_chr.1 h6] at e
      obtain ⟨c, hc, hc'⟩ := h2 (x :: u) r' (by simpa using e)
      have : evalSet U false (lettersItems ++ [.range '0' '9']) c = true := by
        rcases List.mem_cons.1 hc with rfl | hc
        · revert hx
          simp [evalSet]
          intro i hi hv; exact .inl ⟨i, hi, hv⟩
        · exact h5 c hc
      have hall : ∀ c ∈ t!"'\".&- ([", ∀ U : Uni, evalSet U false (lettersItems ++ [.range '0' '9']) c = false := by
        intro c hc U
        simp at hc
        rcases hc with rfl | rfl | rfl | rfl | rfl | rfl | rfl | rfl <;> rfl
      rw [hall c hc' U] at this; cases this

/-- A character reference is left alone. -/
theorem lone_miss {U : Uni} {pre name rest : Str} (hne : name ≠ []) (hn : ∀ c ∈ name, Spec.isLowerLetter c = true) :
    LONE_AMP_RE.matchAt U ⟨pre, '&' :: (name ++ (';' :: rest))⟩ = none := by
  have hl : ∀ c ∈ name, evalSet U false lettersItems c = true ∧ evalSet U false (lettersItems ++ [.range '0' '9']) c = true := by
    intro c hc
    have h := hn c hc
    simp [Spec.isLowerLetter] at h
    have h1 : 'a'.toNat = 97 := rfl
    have h2 : 'z'.toNat = 122 := rfl
    simp [evalSet, lettersItems, Item.eval, h1, h2, h]
  obtain ⟨x, u, rfl⟩ := List.exists_cons_of_ne_nil hne
  have he : Heads U entRe ('&' :: pre) ([x] ++ (u ++ [';'])) rest [] [] := by
    refine Heads.seq (.set (hl x (by simp)).1) (Heads.seq (.star (fun c hc => (hl c (by simp [hc])).2) ?_) .chr)
    intro c hc
    simp at hc
    subst hc
    rfl
  obtain ⟨l, hl'⟩ := he
  rw [Re.matchAt_eq, LONE_shape]
  generalize hA : Re.seq (.set false [.chr '#']) (.seq (.seq _ _) _) = A
  generalize hB : Re.seq (.set false [.chr '#']) _ = B
  have hall : (Re.alt A (.alt B entRe)).all U ⟨'&' :: pre, (x :: u) ++ ';' :: rest⟩ [] ≠ [] := by
    have : (Re.alt A (.alt B entRe)).all U ⟨'&' :: pre, (x :: u) ++ ';' :: rest⟩ [] =
      A.all U ⟨'&' :: pre, (x :: u) ++ ';' :: rest⟩ [] ++ (B.all U ⟨'&' :: pre, (x :: u) ++ ';' :: rest⟩ [] ++ entRe.all U ⟨'&' :: pre, (x :: u) ++ ';' :: rest⟩ []) := rfl
    rw [this]
    have e : (⟨'&' :: pre, (x :: u) ++ ';' :: rest⟩ : Cur) = ⟨'&' :: pre, ([x] ++ (u ++ [';'])) ++ rest⟩ := by simp
    rw [e, hl']
    simp
  have : (Re.seq (.set false [.chr '&']) (.look true (.alt A (.alt B entRe)))).all U ⟨pre, '&' :: ((x :: u) ++ ';' :: rest)⟩ [] =
      (Re.look true (.alt A (.alt B entRe))).all U ⟨'&' :: pre, (x :: u) ++ ';' :: rest⟩ [] := by
    have hs : (Re.set false [.chr '&']).all U ⟨pre, '&' :: ((x :: u) ++ ';' :: rest)⟩ [] = [(⟨'&' :: pre, (x :: u) ++ ';' :: rest⟩, [])] := by
      simp [Re.all, evalSet_chr]
    change ((Re.set false [.chr '&']).all U _ []).flatMap _ = _
    rw [hs]
    simp
  rw [this, look_some hall]
  rfl

end Rustextile
