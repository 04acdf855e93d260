import Verif.SignText
import Verif.SpecCaps

/-!
# The patterns of words in capitals
-/

namespace Rustextile

variable {U : Uni}

/-! ## Acronyms -/

def upRe : Re := .set false [.cls .Lu]
def acrSet : Re := .set false [.cls .Lu, .cls .digit]

theorem ACR_shape : GL_ACR_RE = .seq .wordb (.seq (.grp 1 (.seq upRe (.seq (.seq acrSet acrSet) (.star true acrSet))))
    (.seq .wordb (.seq (.set false [.chr '(']) (.seq (.grp 2 (.star true (.set true [.chr ')']))) (.set false [.chr ')']))))) := by kernel_rfl

theorem ACR_nonnull : GL_ACR_RE.nonnull = true := by kernel_rfl

theorem up_eval {c : Char} : evalSet U false [.cls .Lu] c = U.isLu c := by simp [evalSet, Item.eval, UC.eval]
theorem acr_eval {c : Char} : evalSet U false [.cls .Lu, .cls .digit] c = (U.isLu c || U.isNd c) := by simp [evalSet, Item.eval, UC.eval]

theorem acr_lang {w : Str} (h : GL_ACR_RE.lang U w) : ∃ k v, w = k ++ '(' :: v ∧ ∀ c ∈ k, (U.isLu c || U.isNd c) = true := by
  rw [ACR_shape] at h
  simp only [upRe, acrSet, lang_seq, lang_grp, lang_chr, lang_star_set, lang_set, up_eval, acr_eval] at h
  obtain ⟨u0, _, rfl, h0, k, _, rfl, ⟨_, _, rfl, ⟨x, rfl, hx⟩, _, z, rfl, ⟨_, _, rfl, ⟨y1, rfl, h1⟩, y2, rfl, h2⟩, hz⟩, u1, _, rfl, h3, _, v, rfl, ⟨b, rfl, hb⟩, -⟩ := h
  have e0 : u0 = [] := h0
  simp [evalSet, Item.eval_chr] at hb
  subst hb
  have e1 : u1 = [] := h3
  subst e0 e1
  refine ⟨x :: y1 :: y2 :: z, v, by simp, ?_⟩
  intro c hc
  simp at hc
  rcases hc with rfl | rfl | rfl | hc
  · simp [hx]
  · simpa using h1
  · simpa using h2
  · exact hz c hc

theorem acr_skips {w pre rest : Str} (h : '(' ∉ w)
    (he : (∃ u c, w = u ++ [c] ∧ U.isLu c = false ∧ U.isNd c = false) ∨ '(' ∉ rest) : Skips U GL_ACR_RE pre w rest := by
  intro u x v e
  refine matchAt_none_of (fun y r ey s' ht => ?_)
  obtain ⟨k, z, rfl, hk⟩ := acr_lang ht.lang
  simp only at ey
  have hx : '(' ∉ x :: v := fun hm => h (by rw [e]; simp at hm ⊢; exact .inr hm)
  have key : ∀ {a b k z : Str}, '(' ∉ a → a ++ b = k ++ '(' :: z → ∃ k', k = a ++ k' ∧ b = k' ++ '(' :: z := by
    intro a b k z ha e
    rcases List.append_eq_append_iff.1 e with ⟨l, rfl, e'⟩ | ⟨l, rfl, e'⟩
    · exact ⟨l, rfl, e'⟩
    · cases l with
      | nil => exact ⟨[], by simp, by simpa using e'.symm⟩
      | cons c l => simp at e'; exact absurd (by simp [← e'.1]) ha
  obtain ⟨k', rfl, e2⟩ := key hx (by rw [ey, List.append_assoc]; rfl)
  rcases he with ⟨u', c, e', h1, h2⟩ | he
  · have hc : c ∈ x :: v := by
      have : (u ++ x :: v).getLast? = some c := by rw [← e, e']; simp
      rw [getLast_append_ne (by simp)] at this
      exact List.mem_of_getLast? this
    have := hk c (List.mem_append_left _ hc)
    simp [h1, h2] at this
  · exact he (by rw [e2]; simp)

theorem capital_ascii {c : Char} (h : Spec.isCapital c = true) : c.toNat < 128 ∧ isUp c = true := by
  simp [Spec.isCapital] at h
  simp [isUp]; omega

theorem capital_up (hU : UniOk U) {c : Char} (h : Spec.isCapital c = true) : U.isLu c = true := by
  obtain ⟨h1, h2⟩ := capital_ascii h
  rw [hU.upper c h1, h2]

theorem capital_word (hU : UniOk U) {c : Char} (h : Spec.isCapital c = true) : U.isWord c = true := by
  obtain ⟨h1, h2⟩ := capital_ascii h
  rw [hU.word c h1, h2]; rfl

theorem capital_ws {c : Char} (h : Spec.isCapital c = true) : isWs c = false := by
  simp [Spec.isCapital] at h
  simp [isWs]
  omega

/-- Where a word can start. -/
def AtStart (U : Uni) (pre : Str) : Prop := pre = [] ∨ ∃ c p, pre = c :: p ∧ U.isWord c = false

theorem three {w : Str} (h : 3 ≤ w.length) : ∃ a b c v, w = a :: b :: c :: v := by
  match w, h with
  | a :: b :: c :: v, _ => exact ⟨a, b, c, v, rfl⟩

theorem acr_hit (hU : UniOk U) {pre w title rest : Str} (hp : AtStart U pre) (hl : 3 ≤ w.length) (hw : ∀ c ∈ w, Spec.isCapital c = true) (ht : ')' ∉ title) :
    Heads U GL_ACR_RE pre (w ++ '(' :: (title ++ [')'])) rest [] [(2, title), (1, w)] := by
  have hlast : ∃ c p, w.reverse ++ pre = c :: p ∧ U.isWord c = true := by
    rcases List.eq_nil_or_concat w with rfl | ⟨u, c, e⟩
    · simp at hl
    · rw [List.concat_eq_append] at e
      exact ⟨c, u.reverse ++ pre, by simp [e], capital_word hU (hw c (by simp [e]))⟩
  have hb : U.isWord '(' = false := by rw [hU.word _ (by decide)]; rfl
  obtain ⟨a, b, c, v, e⟩ := three hl
  have hup : ∀ x ∈ w, evalSet U false [.cls .Lu, .cls .digit] x = true := fun x hx => by rw [acr_eval, capital_up hU (hw x hx)]; rfl
  rw [ACR_shape]
  have e1 : w ++ '(' :: (title ++ [')']) = [] ++ (w ++ ([] ++ (['('] ++ (title ++ [')'])))) := by simp
  rw [e1]
  refine Heads.seq (s1 := []) ⟨[], ?_⟩ (Heads.seq (s1 := [(1, w)]) (.grp ?_) (Heads.seq (s1 := [(1, w)]) ⟨[], ?_⟩ (Heads.seq .chr
    (Heads.seq (.grp (.star ?_ ?_)) .chr))))
  · have hw1 : U.isWord a = true := capital_word hU (hw a (by simp [e]))
    rw [e]
    rcases hp with rfl | ⟨d, p, rfl, hd⟩
    · simp [Re.all, atWordB, hw1]
    · simp [Re.all, atWordB, hw1, hd]
  · rw [e] at hw hup ⊢
    have : a :: b :: c :: v = [a] ++ (([b] ++ [c]) ++ v) := rfl
    rw [this]
    refine Heads.seq (.set (by rw [up_eval]; exact capital_up hU (hw a (by simp)))) (Heads.seq (Heads.seq (.set (hup b (by simp))) (.set (hup c (by simp)))) (.star (fun x hx => hup x (by simp [hx])) ?_))
    intro x ex
    simp at ex
    rw [← ex, acr_eval, hU.upper _ (by decide), hU.dec _ (by decide)]; rfl
  · obtain ⟨d, p, e2, hd⟩ := hlast
    simp only [List.reverse_nil, List.nil_append, e2]
    simp [Re.all, atWordB, hd, hb]
  · intro x hx
    have : x ≠ ')' := by rintro rfl; exact ht hx
    simp [evalSet, Item.eval_chr, this]
  · intro x ex
    simp at ex
    rw [← ex]; rfl

/-- What the words in capitals are after acronyms have been replaced. -/
def capsMid (html5 : Bool) : Spec.Caps → Str
  | .word w tail => w ++ tail
  | .acronym w title => t!"<" ++ (Spec.acronymTag html5 ++ (Spec.titleStart ++ (title ++ (t!"\">" ++ (w ++ (t!"</" ++ (Spec.acronymTag html5 ++ t!">")))))))

def capMid (html5 : Bool) (ps : List (Spec.Caps × Str)) : Str := ps.flatMap (fun p => capsMid html5 p.1 ++ p.2)

def acrTempl (html5 : Bool) : Str := if html5 then t!"<abbr title=\"$2\">$1</abbr>" else t!"<acronym title=\"$2\">$1</acronym>"

theorem acr_templ (html5 : Bool) (x w title : Str) : templ (acrTempl html5) x [(2, title), (1, w)] = capsMid html5 (.acronym w title) := by
  cases html5 <;> rfl

theorem space_not (hU : UniOk U) {c : Char} (h : c = ' ' ∨ c = '\n') : U.isLu c = false ∧ U.isNd c = false ∧ U.isWord c = false := by
  rcases h with rfl | rfl
  all_goals exact ⟨by rw [hU.upper _ (by decide)]; rfl, by rw [hU.dec _ (by decide)]; rfl, by rw [hU.word _ (by decide)]; rfl⟩

theorem prose_noparen {up : Char → Bool} {t : Str} (h : Spec.Prose up t) : '(' ∉ t := fun hm => by
  rcases h.chars _ hm with h | h <;> exact absurd h (by decide)

theorem capital_ne {w : Str} (hw : ∀ c ∈ w, Spec.isCapital c = true) {d : Char} (hd : Spec.isCapital d = false) : d ∉ w := fun hm => by
  rw [hw d hm] at hd; cases hd

theorem low_ne {w : Str} (hw : ∀ c ∈ w, Spec.isLowerLetter c = true) {d : Char} (hd : Spec.isLowerLetter d = false) : d ∉ w := fun hm => by
  rw [hw d hm] at hd; cases hd

theorem acr_scan (hU : UniOk U) (html5 : Bool) : ∀ {ps : List (Spec.Caps × Str)} {pre w : Str}, '(' ∉ w →
    (ps ≠ [] → w = [] ∧ AtStart U pre ∨ Spec.EndsInSpace w) → Spec.AllApart ps → (∀ p ∈ ps, Spec.Prose U.isLu p.2) →
    Scan U GL_ACR_RE (templ (acrTempl html5)) pre (w ++ Spec.capSource ps) (w ++ capMid html5 ps)
  | [], pre, w, hw, _, _, _ => by
    have := Scan.of_skips (g := templ (acrTempl html5)) (acr_skips (U := U) (pre := pre) (rest := []) hw (.inr (by simp))) .nil
    exact this
  | (.word c tail, v) :: ps, pre, w, hw, hc, ha, ht => by
    obtain ⟨⟨_, h1, h2, _⟩, h3, h4⟩ := ha
    have hv := ht _ List.mem_cons_self
    have := acr_scan hU html5 (ps := ps) (pre := pre) (w := w ++ (c ++ (tail ++ v))) ?_ (fun hne => .inr ?_) h4 (fun p hp => ht p (by simp [hp]))
    · simpa [Spec.capSource, capMid, Spec.Caps.source, capsMid] using this
    · simp only [List.mem_append, not_or]
      exact ⟨hw, capital_ne h1 (by decide), low_ne h2 (by decide), prose_noparen hv⟩
    · obtain ⟨u, d, e, hd⟩ := h3 hne
      exact ⟨w ++ (c ++ (tail ++ u)), d, by simp only at e; simp [e], hd⟩
  | (.acronym c title, v) :: ps, pre, w, hw, hc, ha, ht => by
    obtain ⟨⟨h0, h1, _, h2⟩, h3, h4⟩ := ha
    have hv := ht _ List.mem_cons_self
    have htt : ')' ∉ title := fun hm => absurd (h2 _ hm) (by decide)
    have hstart : AtStart U (w.reverse ++ pre) := by
      rcases hc (by simp) with ⟨rfl, h⟩ | ⟨u, d, rfl, hd⟩
      · simpa using h
      · exact .inr ⟨d, u.reverse ++ pre, by simp, (space_not hU hd).2.2⟩
    have ih := acr_scan hU html5 (ps := ps) (pre := (c ++ '(' :: (title ++ [')'])).reverse ++ (w.reverse ++ pre)) (w := v) (prose_noparen hv) (fun hne => .inr (h3 hne)) h4 (fun p hp => ht p (by simp [hp]))
    have hit := scan_hit (tm := acrTempl html5) (acr_hit hU (rest := v ++ Spec.capSource ps) hstart h0 h1 htt) (by simp) (acr_templ html5 _ _ _) ih
    have : Skips U GL_ACR_RE pre w (c ++ '(' :: (title ++ [')']) ++ (v ++ Spec.capSource ps)) := by
      rcases hc (by simp) with ⟨rfl, h⟩ | ⟨u, d, rfl, hd⟩
      · exact Skips.nil
      · exact acr_skips hw (.inl ⟨u, d, rfl, (space_not hU hd).1, (space_not hU hd).2.1⟩)
    have := Scan.of_skips this hit
    simpa [Spec.capSource, capMid, Spec.Caps.source] using this

/-! ## Three capitals -/

def beforeRe : Re := .grp 1 (.alt wsRe (.alt .bot (.set false [.chr '>', .chr '(', .chr ';', .chr '-'])))
def upsRe : Re := .grp 2 (.seq (.seq upRe (.seq upRe upRe)) (.star true upRe))
def lowsRe : Re := .grp 3 (.star true (.set false [.cls .Ll]))
def restRe : Re := .seq (.star false (.set true [.chr '"', .chr '>'])) (.grp 4 (.alt (.set false [.chr '<']) .eot))

theorem DYN_shape : DYN_3PLUS_RE = .seq beforeRe (.seq upsRe (.seq lowsRe (.seq endRe (.look false restRe)))) := by kernel_rfl
theorem DYN_nonnull : DYN_3PLUS_RE.nonnull = true := by kernel_rfl

theorem low_eval {c : Char} : evalSet U false [.cls .Ll] c = U.isLl c := by simp [evalSet, Item.eval, UC.eval]

/-- Neither a quotation mark nor the end of a tag comes before the next tag or the end of the text. -/
def Clear (t : Str) : Prop := ∃ u z, t = u ++ z ∧ '"' ∉ u ∧ '>' ∉ u ∧ (z = [] ∨ ∃ z', z = '<' :: z')

/-- What a match is. -/
theorem dyn_takes {pre w rest : Str} {s' : Caps} (h : Takes U DYN_3PLUS_RE pre w rest [] s') : Clear rest ∧
    ∃ x k l, w = x ++ (k ++ l) ∧ 3 ≤ k.length ∧ (∀ c ∈ k, U.isLu c = true) ∧ (∀ c ∈ l, U.isLl c = true) ∧
      ((x = [] ∧ pre = []) ∨ ∃ c, x = [c] ∧ (isWs c = true ∨ c ∈ t!">(;-")) := by
  rw [DYN_shape] at h
  obtain ⟨x, _, s1, rfl, h1, h⟩ := h.seq
  obtain ⟨k, _, s2, rfl, h2, h⟩ := h.seq
  obtain ⟨l, _, s3, rfl, h3, h⟩ := h.seq
  obtain ⟨u1, u2, s4, rfl, h4, h5⟩ := h.seq
  obtain ⟨rfl, -⟩ := h4.look_pos
  obtain ⟨rfl, v, r', e, h6⟩ := h5.look_pos
  obtain ⟨v1, v2, s5, rfl, h7, h8⟩ := h6.seq
  obtain ⟨s6, h9, -⟩ := h8.grp
  have h7l := lang_star_set.1 h7.lang
  have hk := h2.lang
  have hl := h3.lang
  simp only [upsRe, lowsRe, upRe, lang_grp, lang_seq, lang_set, lang_star_set, up_eval, low_eval] at hk hl
  obtain ⟨_, z, rfl, ⟨_, _, rfl, ⟨a, rfl, ha⟩, _, _, rfl, ⟨b, rfl, hb⟩, c, rfl, hc⟩, hz⟩ := hk
  refine ⟨⟨v1, v2 ++ r', by rw [← List.append_assoc]; exact e, ?_, ?_, ?_⟩, x, a :: b :: c :: z, l, by simp, by simp, ?_, hl, ?_⟩
  · exact fun hm => absurd (h7l _ hm) (by simp [evalSet, Item.eval_chr])
  · exact fun hm => absurd (h7l _ hm) (by simp [evalSet, Item.eval_chr])
  · rcases h9.alt with h | h
    · obtain ⟨rfl, -⟩ := h.chr
      exact .inr ⟨r', rfl⟩
    · obtain ⟨h1, h2, -⟩ := h.eot
      exact .inl (by rw [h1, h2]; rfl)
  · intro d hd
    simp at hd
    rcases hd with rfl | rfl | rfl | hd
    · exact ha
    · exact hb
    · exact hc
    · exact hz d hd
  · obtain ⟨s7, h10, -⟩ := h1.grp
    rcases h10.alt with h | h
    · obtain ⟨c, rfl, hc, -⟩ := h.set
      exact .inr ⟨c, rfl, .inl (by simpa [evalSet, Item.eval, UC.eval] using hc)⟩
    · rcases h.alt with h | h
      · obtain ⟨h1, h2, -⟩ := h.bot
        exact .inl ⟨h2, h1⟩
      · obtain ⟨c, rfl, hc, -⟩ := h.set
        exact .inr ⟨c, rfl, .inr (by simpa [evalSet, Item.eval_chr] using hc)⟩

theorem dyn_skips {w pre rest : Str} (h : NoCaps U w) (he : ∀ c, rest.head? = some c → U.isLu c = false) : Skips U DYN_3PLUS_RE pre w rest := by
  intro u y v e
  refine matchAt_none_of (fun w' r ey s' ht => ?_)
  obtain ⟨-, x, k, l, rfl, hk, hu, -, hx⟩ := dyn_takes ht
  obtain ⟨a, b, c, k, rfl⟩ := three hk
  simp only at ey
  have hxl : x = [] ∨ ∃ c, x = [c] := by
    rcases hx with ⟨h, -⟩ | ⟨c, h, -⟩
    · exact .inl h
    · exact .inr ⟨c, h⟩
  have ha := hu a (by simp)
  have hb := hu b (by simp)
  have hc := hu c (by simp)
  have main : ∀ {v t q : Str}, v ++ rest = t ++ q → (∀ d ∈ t, U.isLu d = true) → ∃ v', v = t ++ v' := by
    intro v t q e' h'
    rcases List.append_eq_append_iff.1 e' with ⟨m, rfl, e2⟩ | ⟨m, rfl, -⟩
    · cases m with
      | nil => exact ⟨[], by simp⟩
      | cons d m =>
        have := he d (by rw [e2]; rfl)
        rw [h' d (by simp)] at this
        cases this
    · exact ⟨m, rfl⟩
  have key : ∃ u' v', y :: v = u' ++ a :: b :: c :: v' := by
    rcases hxl with rfl | ⟨d, rfl⟩
    · obtain ⟨v', e'⟩ := main (v := y :: v) (t := [a, b, c]) (q := k ++ (l ++ r)) (by rw [ey]; simp) (by simp [ha, hb, hc])
      exact ⟨[], v', e'⟩
    · simp at ey
      obtain ⟨v', e'⟩ := main (v := v) (t := [a, b, c]) (q := k ++ (l ++ r)) (by rw [ey.2]; simp) (by simp [ha, hb, hc])
      exact ⟨[y], v', by rw [e']; simp⟩
  obtain ⟨u', v', e'⟩ := key
  exact h (u ++ u') a b c v' (by rw [e, e']; simp) ⟨ha, hb, hc⟩

theorem dyn_char {pre rest : Str} {c : Char} (hp : pre ≠ []) (h1 : isWs c = false) (h2 : c ∉ t!">(;-") : DYN_3PLUS_RE.matchAt U ⟨pre, c :: rest⟩ = none := by
  refine matchAt_none_of (fun w' r ey s' ht => ?_)
  obtain ⟨-, x, k, l, rfl, hk, hu, -, hx⟩ := dyn_takes ht
  rcases hx with ⟨-, h⟩ | ⟨d, rfl, hd⟩
  · exact hp h
  · simp at ey
    rw [← ey.1, h1] at hd
    rcases hd with hd | hd
    · cases hd
    · exact h2 hd

theorem dyn_title (hU : UniOk U) {w pre rest : Str} (hp : pre ≠ []) (h : '"' ∉ w) (hlt : '<' ∉ w) : Skips U DYN_3PLUS_RE pre w ('"' :: rest) := by
  intro u y v e
  refine matchAt_none_of (fun w' r ey s' ht => ?_)
  obtain ⟨⟨u', z, rfl, hu, -, hz⟩, x, k, l, rfl, hk, hup, hlow, hx⟩ := dyn_takes ht
  simp only at ey
  have hq : U.isLu '"' = false := by rw [hU.upper _ (by decide)]; rfl
  have hq' : U.isLl '"' = false := by rw [hU.lower _ (by decide)]; rfl
  have hnot : '"' ∉ x ++ (k ++ l) ++ u' := by
    simp only [List.mem_append, not_or]
    refine ⟨⟨?_, ?_, ?_⟩, hu⟩
    · rcases hx with ⟨rfl, -⟩ | ⟨d, rfl, hd⟩
      · simp
      · intro hm
        simp at hm
        subst hm
        exact absurd hd (by decide)
    · intro hm; rw [hup _ hm] at hq; cases hq
    · intro hm; rw [hlow _ hm] at hq'; cases hq'
  have ey' : (y :: v) ++ '"' :: rest = (x ++ (k ++ l) ++ u') ++ z := by rw [ey]; simp
  have hyv : ∀ c, c ∉ w → c ∉ y :: v := fun c hc hm => hc (by rw [e]; exact List.mem_append_right _ hm)
  rcases List.append_eq_append_iff.1 ey' with ⟨m, e1, e2⟩ | ⟨m, e1, e2⟩
  · cases m with
    | nil => 
      simp at e2
      rcases hz with rfl | ⟨z', rfl⟩
      · simp at e2
      · simp at e2
    | cons d m =>
      simp at e2
      exact hnot (by rw [e1, e2.1]; simp)
  · rcases hz with rfl | ⟨z', rfl⟩
    · simp at e2
    · cases m with
      | nil => simp at e2
      | cons d m =>
        simp at e2
        exact hyv '<' hlt (by rw [e1, e2.1]; simp)

/-- The words with the mark that protects them. -/
def capsOut (uid : Str) (html5 : Bool) : Spec.Caps → Str
  | .word w tail => t!"<span class=\"caps\">" ++ (uid ++ (t!":glyph:" ++ (w ++ (t!"</span>" ++ tail))))
  | .acronym w title => t!"<" ++ (Spec.acronymTag html5 ++ (Spec.titleStart ++ (title ++ (t!"\">" ++ (t!"<span class=\"caps\">" ++ (uid ++ (t!":glyph:" ++ (w ++ (t!"</span>" ++
      (t!"</" ++ (Spec.acronymTag html5 ++ t!">")))))))))))

def capOut (uid : Str) (html5 : Bool) (ps : List (Spec.Caps × Str)) : Str := ps.flatMap (fun p => capsOut uid html5 p.1 ++ p.2)

def capsTemplate (uid : Str) : Str := t!"$1<span class=\"caps\">" ++ uid ++ t!":glyph:$2</span>$3"

theorem templAux_append : ∀ {w : Str}, (∀ c ∈ w, c ≠ '$') → ∀ t, templAux none (w ++ t) = w.map .lit ++ templAux none t
  | [], _, _ => rfl
  | c :: w, h, t => by
    have hc : (c == '$') = false := by simpa using h c (by simp)
    simp only [List.cons_append, templAux, hc, List.map_cons]
    simp [templAux_append (w := w) (fun d hd => h d (by simp [hd])) t]

theorem expand_lits (w : Str) (m : Mat) (t : List Piece) : expand (w.map .lit ++ t) m = w ++ expand t m := by
  induction w with
  | nil => rfl
  | cons c w ih => simp only [List.map_cons, List.cons_append, expand, List.flatMap_cons] at ih ⊢; rw [ih]; rfl

theorem caps_templ {uid : Str} (hu : '$' ∉ uid) (x a k l z : Str) :
    templ (capsTemplate uid) x [(4, z), (3, l), (2, k), (1, a)] = a ++ (t!"<span class=\"caps\">" ++ (uid ++ (t!":glyph:" ++ (k ++ (t!"</span>" ++ l))))) := by
  have e1 : templAux none (capsTemplate uid) = .ref 1 :: templAux none (t!"<span class=\"caps\">" ++ (uid ++ t!":glyph:$2</span>$3")) := by
    unfold capsTemplate
    rw [List.append_assoc]
    rfl
  have e2 : templAux none t!":glyph:$2</span>$3" = t!":glyph:".map .lit ++ (.ref 2 :: (t!"</span>".map .lit ++ [.ref 3])) := by decide
  unfold templ expandTemplate
  rw [e1, templAux_append (by decide), templAux_append (fun c hc e => hu (e ▸ hc)), e2]
  have step : ∀ n t m, expand (Piece.ref n :: t) m = m.grp n ++ expand t m := fun n t m => rfl
  rw [step, expand_lits, expand_lits, expand_lits, step, expand_lits, step]
  have g1 : (⟨[], x, [(4, z), (3, l), (2, k), (1, a)]⟩ : Mat).grp 1 = a := rfl
  have g2 : (⟨[], x, [(4, z), (3, l), (2, k), (1, a)]⟩ : Mat).grp 2 = k := rfl
  have g3 : (⟨[], x, [(4, z), (3, l), (2, k), (1, a)]⟩ : Mat).grp 3 = l := rfl
  rw [g1, g2, g3]
  simp [expand]

theorem look_clear {pre rest : Str} {s : Caps} (h : Clear rest) : ∃ z, Heads U (.look false restRe) pre [] rest s ((4, z) :: s) := by
  obtain ⟨u, z, rfl, h1, h2, hz⟩ := h
  have hne : restRe.all U ⟨pre, u ++ z⟩ s ≠ [] := by
    have hu : (⟨u.reverse ++ pre, z⟩, s) ∈ (Re.star false (.set true [.chr '"', .chr '>'])).all U ⟨pre, u ++ z⟩ s := by
      refine mem_star_set.2 ⟨u, fun x hx => ?_, ⟨rfl, rfl⟩, rfl⟩
      have e1 : x ≠ '"' := by rintro rfl; exact h1 hx
      have e2 : x ≠ '>' := by rintro rfl; exact h2 hx
      simp [evalSet, Item.eval_chr, e1, e2]
    have hz' : ∃ q, q ∈ (Re.grp 4 (.alt (.set false [.chr '<']) .eot)).all U ⟨u.reverse ++ pre, z⟩ s := by
      rcases hz with rfl | ⟨z', rfl⟩
      · obtain ⟨l, hl⟩ : Heads U (Re.grp 4 (.alt (.set false [.chr '<']) .eot)) (u.reverse ++ pre) [] [] s _ := .grp (.right (by simp [Re.all]) .eot)
        simp only [List.append_nil] at hl
        exact ⟨_, by rw [hl]; exact List.mem_cons_self⟩
      · obtain ⟨l, hl⟩ : Heads U (Re.grp 4 (.alt (.set false [.chr '<']) .eot)) (u.reverse ++ pre) ['<'] z' s _ := .grp (.left .chr)
        exact ⟨_, by rw [show '<' :: z' = ['<'] ++ z' from rfl, hl]; exact List.mem_cons_self⟩
    obtain ⟨q, hq⟩ := hz'
    have : q ∈ restRe.all U ⟨pre, u ++ z⟩ s := mem_seq.2 ⟨_, _, hu, hq⟩
    intro e
    rw [e] at this
    cases this
  cases e : restRe.all U ⟨pre, u ++ z⟩ s with
  | nil => exact absurd e hne
  | cons q l =>
    have hq : q ∈ restRe.all U ⟨pre, u ++ z⟩ s := by rw [e]; simp
    obtain ⟨w, r, -, -, ht⟩ := Takes.of_mem hq
    obtain ⟨a, b, s1, -, h3, h4⟩ := ht.seq
    obtain ⟨s2, h5, e2⟩ := h4.grp
    have := h3.nogrp rfl
    have := h5.nogrp rfl
    subst_vars
    refine ⟨b, [], ?_⟩
    simp only [Re.all, List.nil_append, e, List.reverse_nil]
    simp [e2]

theorem heads_lt {pre rest : Str} {s : Caps} : Heads U endRe pre [] ('<' :: rest) s s := by
  refine ⟨[], ?_⟩
  have h1 : evalSet U false [.cls .space] '<' = false := rfl
  have h2 : evalSet U false punctItems '<' = true := rfl
  simp [endRe, Re.all, wsRe, h1, h2]

theorem dyn_hit (hU : UniOk U) {pre x k l rest : Str} (hb : Heads U beforeRe pre x (k ++ (l ++ rest)) [] [(1, x)]) (h3 : 3 ≤ k.length)
    (hk : ∀ c ∈ k, Spec.isCapital c = true) (hl : ∀ c ∈ l, Spec.isLowerLetter c = true)
    (hr : Spec.StartsIn t!" \n,./" rest ∨ ∃ r, rest = '<' :: r) (hc : Clear rest) :
    ∃ z, Heads U DYN_3PLUS_RE pre (x ++ (k ++ l)) rest [] [(4, z), (3, l), (2, k), (1, x)] := by
  obtain ⟨z, hz⟩ := look_clear (U := U) (pre := l.reverse ++ (k.reverse ++ (x.reverse ++ pre))) (s := [(3, l), (2, k), (1, x)]) hc
  refine ⟨z, ?_⟩
  have hrest : ∀ c, rest.head? = some c → U.isLu c = false ∧ U.isLl c = false := by
    intro c hc
    have : c ∈ t!" \n,./<" := by
      rcases hr with h | ⟨r, rfl⟩
      · cases rest with
        | nil => cases hc
        | cons d r =>
          have := h d r rfl
          simp at hc
          subst hc
          simp at this ⊢
          rcases this with h | h | h | h | h <;> simp [h]
      · simp at hc; subst hc; decide
    have ha : c.toNat < 128 ∧ isUp c = false ∧ isLow c = false := (by decide : ∀ c ∈ t!" \n,./<", c.toNat < 128 ∧ isUp c = false ∧ isLow c = false) c this
    rw [hU.upper _ ha.1, hU.lower _ ha.1]
    exact ha.2
  have hlow : ∀ c ∈ l, U.isLl c = true ∧ U.isLu c = false := by
    intro c hc
    have := hl c hc
    simp [Spec.isLowerLetter] at this
    rw [hU.upper _ (by omega), hU.lower _ (by omega)]
    simp [isUp, isLow]
    omega
  rw [DYN_shape]
  refine Heads.seq (s1 := [(1, x)]) (by rw [List.append_assoc]; exact hb) (Heads.seq (s1 := [(2, k), (1, x)]) (.grp ?_) ?_)
  · obtain ⟨a, b, c, v, rfl⟩ := three h3
    have hup : ∀ x ∈ a :: b :: c :: v, evalSet U false [.cls .Lu] x = true := fun x hx => by rw [up_eval]; exact capital_up hU (hk x hx)
    rw [show a :: b :: c :: v = ([a] ++ ([b] ++ [c])) ++ v from rfl]
    refine Heads.seq (Heads.seq (.set (hup a (by simp))) (Heads.seq (.set (hup b (by simp))) (.set (hup c (by simp))))) (.star (fun x hx => hup x (by simp [hx])) ?_)
    intro d hd
    rw [up_eval]
    cases l with
    | nil => exact (hrest d hd).1
    | cons e l => simp at hd; subst hd; exact (hlow e (by simp)).2
  · have e : l = l ++ ([] ++ []) := by simp
    have hx : Heads U (lowsRe.seq (endRe.seq (Re.look false restRe))) (k.reverse ++ (x.reverse ++ pre)) (l ++ ([] ++ [])) rest [(2, k), (1, x)] [(4, z), (3, l), (2, k), (1, x)] := by
      refine Heads.seq (s1 := [(3, l), (2, k), (1, x)]) (.grp (.star (fun c hc => by rw [low_eval]; exact (hlow c hc).1) ?_)) (Heads.seq (s1 := [(3, l), (2, k), (1, x)]) ?_ hz)
      · intro d hd; rw [low_eval]; exact (hrest d (by simpa using hd)).2
      · rcases hr with h | ⟨r, rfl⟩
        · exact heads_end (by simpa using h)
        · exact heads_lt
    rwa [← e] at hx

theorem before_start {t : Str} (h : ∀ c, t.head? = some c → isWs c = false) : Heads U beforeRe [] [] t [] [(1, [])] := by
  refine .grp (.right ?_ (.left .bot))
  cases t with
  | nil => rfl
  | cons c t =>
    have : evalSet U false [.cls .space] c = false := by simp [evalSet, Item.eval, UC.eval, h c rfl]
    simp [wsRe, Re.all, this]

theorem before_space {pre t : Str} {c : Char} (h : c = ' ' ∨ c = '\n') : Heads U beforeRe pre [c] t [] [(1, [c])] := by
  refine .grp (.left (.set ?_))
  rcases h with rfl | rfl <;> rfl

theorem before_gt {pre t : Str} (h : pre ≠ []) : Heads U beforeRe pre ['>'] t [] [(1, ['>'])] := by
  refine .grp (.right rfl (.right ?_ (.set rfl)))
  cases pre with
  | nil => exact absurd rfl h
  | cons c p => simp [Re.all]

theorem clear_mid (html5 : Bool) : ∀ {ps : List (Spec.Caps × Str)} {w : Str}, '"' ∉ w → '>' ∉ w → Spec.AllApart ps → (∀ p ∈ ps, Spec.Prose U.isLu p.2) →
    Clear (w ++ capMid html5 ps)
  | [], w, h1, h2, _, _ => ⟨w, [], rfl, h1, h2, .inl rfl⟩
  | (.word c tail, v) :: ps, w, h1, h2, ha, ht => by
    obtain ⟨⟨_, h3, h4, _⟩, _, h5⟩ := ha
    have hv := ht _ List.mem_cons_self
    have := clear_mid html5 (ps := ps) (w := w ++ (c ++ (tail ++ v))) (by
      simp only [List.mem_append, not_or]
      exact ⟨h1, capital_ne h3 (by decide), low_ne h4 (by decide), prose_nochar hv (by decide) (by decide)⟩) (by
      simp only [List.mem_append, not_or]
      exact ⟨h2, capital_ne h3 (by decide), low_ne h4 (by decide), prose_nochar hv (by decide) (by decide)⟩) h5 (fun p hp => ht p (by simp [hp]))
    simpa [capMid, capsMid] using this
  | (.acronym c title, v) :: ps, w, h1, h2, ha, ht => by
    refine ⟨w, _, rfl, h1, h2, .inr ?_⟩
    exact ⟨_, rfl⟩

theorem acrTag_lower (html5 : Bool) : ∀ c ∈ Spec.acronymTag html5, Spec.isLowerLetter c = true := by cases html5 <;> decide

theorem dyn_scan (hU : UniOk U) (html5 : Bool) {uid : Str} (hu : '$' ∉ uid) : ∀ {ps : List (Spec.Caps × Str)} {pre w : Str}, NoCaps U w →
    (ps ≠ [] → w = [] ∧ pre = [] ∨ Spec.EndsInSpace w) → Spec.AllApart ps → (∀ p ∈ ps, Spec.Prose U.isLu p.2) →
    Scan U DYN_3PLUS_RE (templ (capsTemplate uid)) pre (w ++ capMid html5 ps) (w ++ capOut uid html5 ps)
  | [], pre, w, hw, _, _, _ => by
    have := Scan.of_skips (g := templ (capsTemplate uid)) (dyn_skips (U := U) (pre := pre) (rest := []) hw (by simp)) .nil
    exact this
  | (.word c tail, v) :: ps, pre, w, hw, hc, ha, ht => by
    obtain ⟨⟨h0, h1, h2, hs⟩, h3, h4⟩ := ha
    have hv := ht _ List.mem_cons_self
    have hclear : Clear (v ++ capMid html5 ps) := clear_mid (U := U) html5 (prose_nochar hv (by decide) (by decide)) (prose_nochar hv (by decide) (by decide)) h4 (fun p hp => ht p (by simp [hp]))
    have hstart : Spec.StartsIn t!" \n,./" (v ++ capMid html5 ps) := by
      cases v with
      | nil =>
        cases ps with
        | nil => intro d u e; simp [capMid] at e
        | cons p ps => obtain ⟨u, d, e, -⟩ := h3 (by simp); simp at e
      | cons d v =>
        intro d' u e
        simp at e
        rw [← e.1]
        exact hs d v rfl
    have ih : ∀ pre', Scan U DYN_3PLUS_RE (templ (capsTemplate uid)) pre' (v ++ capMid html5 ps) (v ++ capOut uid html5 ps) := fun pre' =>
      dyn_scan hU html5 hu hv.caps (fun hne => .inr (h3 hne)) h4 (fun p hp => ht p (by simp [hp]))
    rcases hc (by simp) with ⟨rfl, rfl⟩ | ⟨w', sp, rfl, hsp⟩
    · have hb : Heads U beforeRe [] [] (c ++ (tail ++ (v ++ capMid html5 ps))) [] [(1, [])] := by
        refine before_start (fun d hd => ?_)
        obtain ⟨a, b, c', k, rfl⟩ := three h0
        simp at hd
        subst hd
        have := h1 a (by simp)
        exact capital_ws this
      obtain ⟨z, hz⟩ := dyn_hit hU hb h0 h1 h2 (.inl hstart) hclear
      have := scan_hit hz (by obtain ⟨a, b, c', k, rfl⟩ := three h0; simp) (caps_templ hu _ _ _ _ _) (ih _)
      simpa [capMid, capOut, capsMid, capsOut] using this
    · obtain ⟨z, hz⟩ := dyn_hit hU (pre := w'.reverse ++ pre) (before_space (U := U) hsp) h0 h1 h2 (.inl hstart) hclear
      have h5 := scan_hit hz (by simp) (caps_templ hu _ _ _ _ _) (ih _)
      have h6 := Scan.of_skips (dyn_skips (pre := pre) (rest := ([sp] ++ (c ++ tail)) ++ (v ++ capMid html5 ps)) (w := w') ?_ ?_) h5
      · simpa [capMid, capOut, capsMid, capsOut] using h6
      · intro a x y z b e
        exact hw a x y z (b ++ [sp]) (by rw [e]; simp)
      · intro d hd
        simp at hd
        subst hd
        exact (space_not hU hsp).1
  | (.acronym c title, v) :: ps, pre, w, hw, hc, ha, ht => by
    obtain ⟨⟨h0, h1, _, h2⟩, h3, h4⟩ := ha
    have hv := ht _ List.mem_cons_self
    have hlow : ∀ (t : Str) (c : Char), (c.toNat < 128 ∧ isUp c = false) → U.isLu c = false := fun _ c h => by rw [hU.upper _ h.1]; exact h.2
    have htag : ∀ d ∈ Spec.acronymTag html5, U.isLu d = false := fun d hd => by
      cases html5
      · exact hlow [] d ((by decide : ∀ d ∈ Spec.acronymTag false, d.toNat < 128 ∧ isUp d = false) d hd)
      · exact hlow [] d ((by decide : ∀ d ∈ Spec.acronymTag true, d.toNat < 128 ∧ isUp d = false) d hd)
    have hseg : NoCaps U (w ++ '<' :: (Spec.acronymTag html5 ++ t!" title=")) := by
      refine NoCaps.sep hw (hlow [] _ (by decide)) (NoCaps.form htag ?_)
      have := NoCaps.form (U := U) (f := t!" title=") (rest := []) (fun d hd => hlow [] d ((by decide : ∀ d ∈ t!" title=", d.toNat < 128 ∧ isUp d = false) d hd)) (fun a x y z b e => by simp at e)
      rwa [List.append_nil] at this
    have hseg' : NoCaps U (t!"</" ++ (Spec.acronymTag html5 ++ (t!">" ++ v))) := by
      refine NoCaps.form (fun d hd => hlow [] d ((by decide : ∀ d ∈ t!"</", d.toNat < 128 ∧ isUp d = false) d hd)) (NoCaps.form htag (NoCaps.form (fun d hd => hlow [] d ((by decide : ∀ d ∈ t!">", d.toNat < 128 ∧ isUp d = false) d hd)) hv.caps))
    have ih : ∀ pre', Scan U DYN_3PLUS_RE (templ (capsTemplate uid)) pre' (t!"</" ++ (Spec.acronymTag html5 ++ (t!">" ++ v)) ++ capMid html5 ps) (t!"</" ++ (Spec.acronymTag html5 ++ (t!">" ++ v)) ++ capOut uid html5 ps) := fun pre' =>
      dyn_scan hU html5 hu hseg' (fun hne => .inr (by obtain ⟨u, d, e, hd⟩ := h3 hne; exact ⟨t!"</" ++ (Spec.acronymTag html5 ++ (t!">" ++ u)), d, by simp only at e; simp [e], hd⟩)) h4 (fun p hp => ht p (by simp [hp]))
    obtain ⟨z, hz⟩ := dyn_hit hU (pre := '"' :: (title.reverse ++ ('"' :: ((w ++ '<' :: (Spec.acronymTag html5 ++ t!" title=")).reverse ++ pre)))) (l := [])
      (rest := t!"</" ++ (Spec.acronymTag html5 ++ (t!">" ++ v)) ++ capMid html5 ps) (before_gt (U := U) (by simp)) h0 h1 (by simp) (.inr ⟨_, rfl⟩) ⟨[], _, rfl, by simp, by simp, .inr ⟨_, rfl⟩⟩
    have hq1 : '"' ∉ title := fun hm => absurd (h2 _ hm) (by decide)
    have hq2 : '<' ∉ title := fun hm => absurd (h2 _ hm) (by decide)
    have s1 := scan_hit hz (by simp) (caps_templ hu _ _ _ _ _) (ih _)
    have s2 := Scan.miss (dyn_char (U := U) (c := '"') (by simp) (by decide) (by decide)) s1
    have s3 := Scan.of_skips (dyn_title hU (by simp) hq1 hq2) s2
    have s4 := Scan.miss (dyn_char (U := U) (c := '"') (by simp) (by decide) (by decide)) s3
    have s5 := Scan.of_skips (dyn_skips (pre := pre) hseg (fun d hd => by simp at hd; subst hd; exact hlow [] _ (by decide))) s4
    simpa [capMid, capOut, capsMid, capsOut, Spec.titleStart] using s5

end Rustextile
