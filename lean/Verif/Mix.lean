import Verif.SpanRe

/-!
# Texts with marked parts

A text is given as a list of marked parts with the text after each of them.  The
patterns of inline markup replace the marked parts one marker after the other; each
marked part becomes a text between two placeholders.
-/

namespace Rustextile

open Prog

/-- A marked part as written, or between placeholders. -/
inductive Itm where
  | raw (m t : Str)
  | tok (n : Nat) (m t : Str)
  deriving DecidableEq

def ospan (uid : Str) (n : Nat) : Str := uid ++ natStr n ++ t!":ospan "
def cspan (uid : Str) (n : Nat) : Str := t!" " ++ uid ++ natStr n ++ t!":cspan"

def Itm.str (uid : Str) : Itm → Str
  | .raw m t => m ++ (t ++ m)
  | .tok n _ t => ospan uid n ++ (t ++ cspan uid (n + 1))

def Itm.mark : Itm → Str
  | .raw m _ => m
  | .tok _ m _ => m

def Itm.text : Itm → Str
  | .raw _ t => t
  | .tok _ _ t => t

def Itm.isRaw : Itm → Bool
  | .raw _ _ => true
  | .tok _ _ _ => false

/-- The text made of marked parts and what follows each of them, and the end `z`. -/
def mix (uid z : Str) (xs : List (Itm × Str)) : Str := xs.flatMap (fun p => p.1.str uid ++ p.2) ++ z

theorem mix_cons (uid z : Str) (i : Itm) (g : Str) (xs : List (Itm × Str)) :
    mix uid z ((i, g) :: xs) = i.str uid ++ (g ++ mix uid z xs) := by
  simp [mix]

theorem mix_nil (uid z : Str) : mix uid z [] = z := rfl

theorem mix_end (uid z : Str) (xs : List (Itm × Str)) : mix uid z xs = mix uid [] xs ++ z := by simp [mix]

/-- Characters that cannot start a match of a pattern of inline markup. -/
def Safe (c : Char) : Prop := c ∉ t!"{[*?-_%+~^"

instance (c : Char) : Decidable (Safe c) := inferInstanceAs (Decidable (¬ _))

theorem marker_mem {m : Str} (h : m ∈ markers) {c : Char} (hc : c ∈ m) : c ∈ t!"*?-_%+~^" := by
  have : ∀ m ∈ markers, ∀ c ∈ m, c ∈ t!"*?-_%+~^" := by decide
  exact this m h c hc

theorem marker_ne {m : Str} (h : m ∈ markers) : m ≠ [] := by
  have : ∀ m ∈ markers, m ≠ [] := by decide
  exact this m h

theorem Safe.marker {c : Char} (h : Safe c) {m : Str} (hm : m ∈ markers) : c ∉ m := by
  intro hc
  have := marker_mem hm hc
  apply h
  simp only [List.mem_cons, List.not_mem_nil, or_false] at this ⊢
  grind

theorem behind_cur {U : Uni} {b : Bool} {n : Nat} {r : Re} {c : Cur} {s : Caps} {p : Cur × Caps}
    (h : p ∈ (Re.behind b n r).all U c s) : p.1 = c := by
  rw [Re.all] at h
  grind

/-- No match where the marker does not stand. -/
theorem span_miss {U : Uni} {m pre rest : Str} {x : Char} (hx : x ∉ t!"{[") (h : ¬ m <+: x :: rest) :
    (spanShape m).matchAt U ⟨pre, x :: rest⟩ = none := by
  rw [Re.matchAt_none]
  have hx' : evalSet U false [.chr '{', .chr '['] x = false := by
    unfold evalSet
    rw [show [Item.chr '{', Item.chr '['] = (t!"{[" : Str).map Item.chr from rfl, any_chr]
    simpa using hx
  rw [spanShape, all_seq, List.flatMap_eq_nil_iff]
  intro p hp
  obtain ⟨c1, s1, h1, rfl⟩ := mem_grp.1 hp
  have hc1 : c1 = ⟨pre, x :: rest⟩ := by
    rcases mem_alt.1 h1 with h | h
    · rcases mem_bot.1 h with ⟨_, h⟩
      simp at h; exact h.1
    · rcases mem_alt.1 h with h | h
      · exact behind_cur h
      · obtain ⟨y, ys, e, hy, _⟩ := mem_set.1 h
        simp at e
        rw [← e.1, hx'] at hy
        cases hy
  subst hc1
  rw [all_seq, List.flatMap_eq_nil_iff]
  intro q hq
  obtain ⟨c2, s2, h2, rfl⟩ := mem_grp.1 hq
  rw [Re.lit_all, if_neg] at h2
  · simp at h2
  · intro h'
    exact h (List.isPrefixOf_iff_prefix.1 h')

/-- `m` does not stand inside `m'`. -/
def apart (m m' : Str) : Prop := ∀ i < m'.length, ¬ m <+: m'.drop i

theorem markers_apart : markers.Pairwise apart := by
  unfold apart; decide

/-- A text that starts with a character that is no marker. -/
def SafeHead (z : Str) : Prop := ∀ c z', z = c :: z' → Safe c

/-- Another marker does not match. -/
theorem apart_miss {U : Uni} {m m' z : Str} (hm : m ∈ markers) (hm' : m' ∈ markers) (ha : apart m m') (hz : SafeHead z)
    (pre : Str) : Skips U (spanShape m) pre m' z := by
  intro u x v e
  refine span_miss ?_ ?_
  · have : ∀ m ∈ markers, ∀ c ∈ m, c ∉ t!"{[" := by decide
    exact this m' hm' x (by rw [e]; simp)
  · intro h
    have hn := ha u.length (by rw [e]; simp)
    rw [show m'.drop u.length = x :: v by rw [e]; simp] at hn
    obtain ⟨w, hw⟩ := h
    have hw' : m ++ w = x :: v ++ z := hw
    rw [List.append_eq_append_iff] at hw'
    rcases hw' with ⟨y, h1, h2⟩ | ⟨y, h1, h2⟩
    · exact hn ⟨y, h1.symm⟩
    · cases y with
      | nil => exact hn ⟨[], by simpa using h1⟩
      | cons c y =>
        refine (hz c _ (by rw [h2]; rfl)).marker hm ?_
        rw [h1]; simp

theorem safe_skips {U : Uni} {m w : Str} (hm : m ∈ markers) (hw : ∀ c ∈ w, Safe c) (pre rest : Str) :
    Skips U (spanShape m) pre w rest := by
  intro u x v e
  have hs := hw x (by rw [e]; simp)
  refine span_miss ?_ ?_
  · intro h; apply hs; simp only [List.mem_cons, List.not_mem_nil, or_false] at h ⊢; grind
  · rintro ⟨y, hy⟩
    cases m with
    | nil => exact marker_ne hm rfl
    | cons c m =>
      simp at hy
      exact hs.marker hm (by rw [hy.1]; simp)

/-! ## One marked part -/

theorem runs_spanEnter {C : Ctx} (σ : PState) :
    Runs C spanEnterP (σ.spanDepth + 1) σ { σ with spanDepth := σ.spanDepth + 1 } := by
  intro w hw e; subst e; exact ⟨w.spanEnter.2, rfl, rfl, hw⟩

theorem runs_spanLeave {C : Ctx} (σ : PState) : Runs C spanLeaveP () σ { σ with spanDepth := σ.spanDepth - 1 } := by
  intro w hw e; subst e; exact ⟨w.spanLeave, rfl, rfl, hw⟩

theorem runs_cacheRef {C : Ctx} (k : RefKind) (v : Str) (σ : PState) :
    Runs C (cacheRefP k v) (σ.refIndex + 1) σ
      { σ with refIndex := σ.refIndex + 1, refCache := imInsert (σ.refIndex + 1) v σ.refCache } := by
  intro w hw e; subst e; exact ⟨(w.cacheRef v).2, rfl, rfl, hw⟩

/-- Inner levels leave text without markers alone. -/
theorem runs_spanN_none {C : Ctx} {t : Str} (n : Nat) (h : ∀ r ∈ spanPatterns, r.search C.U [] t = none) (σ : PState) :
    Runs C (spanN C (n + 1) t) t σ σ := by
  unfold spanN
  rw [multiReplaceWithOne_none h]
  simp only [ite_self, pure_bind]
  refine (runs_spanEnter σ).bind ((runs_spanLeave _).bind ?_)
  exact Runs.pure _ _

theorem skips_none {U : Uni} {r : Re} (hn : r.nonnull = true) : ∀ {t pre : Str}, Skips U r pre t [] → r.search U pre t = none
  | [], pre, _ => by
    apply Re.search_miss_nil
    cases e : r.matchAt U ⟨pre, []⟩ with
    | none => rfl
    | some q =>
      obtain ⟨w, h1, h2⟩ := Re.matchAt_nonnull hn (e := q.1) (s := q.2) e
      have := h2.1
      simp at this
      exact absurd this.1 h1
  | x :: t, pre, h => by
    have := h.head
    rw [List.append_nil] at this
    rw [Re.search_miss_cons this]
    exact skips_none hn h.tail

theorem safe_none {U : Uni} {t : Str} (h : ∀ c ∈ t, Safe c) : ∀ r ∈ spanPatterns, r.search U [] t = none := by
  intro r hr
  rw [spanPatterns_eq] at hr
  obtain ⟨m, hm, rfl⟩ := List.mem_map.1 hr
  have hs := safe_skips (U := U) (rest := []) hm h []
  exact skips_none (spanShape_nonnull m hm) hs

/-- The state after two tags have been stored. -/
def PState.tagged (o c : Str) (σ : PState) : PState :=
  { σ with refIndex := σ.refIndex + 2, refCache := imInsert (σ.refIndex + 2) c (imInsert (σ.refIndex + 1) o σ.refCache) }

theorem runs_storeTags {C : Ctx} (o c : Str) (σ : PState) :
    Runs C (storeTags C o c) (ospan C.cfg.uid (σ.refIndex + 1), cspan C.cfg.uid (σ.refIndex + 2)) σ (σ.tagged o c) := by
  unfold storeTags
  exact (runs_cacheRef _ _ σ).bind ((runs_cacheRef _ _ _).bind (Runs.pure _ _))

/-- The name of the element for a marker. -/
def tagName (m : Str) : Str := match spanTag m with | .ok t => t | .error _ => []

theorem spanTag_marker {m : Str} (h : m ∈ markers) : spanTag m = .ok (tagName m) := by
  have : ∀ m ∈ markers, spanTag m = .ok (tagName m) := by
    intro m h
    simp only [markers, List.mem_cons, List.not_mem_nil, or_false] at h
    rcases h with rfl | rfl | rfl | rfl | rfl | rfl | rfl | rfl | rfl | rfl <;> rfl
  exact this m h

theorem runs_fSpan {C : Ctx} {n : Nat} {m c e gap w : Str} {σ : PState} (hm : m ∈ markers) (hc : ∀ x ∈ c, Safe x) :
    Runs C (fSpan C (spanN C (n + 1)) ⟨gap, w, [(7, []), (6, e), (5, c), (3, []), (2, m), (1, [])]⟩)
      ((Itm.tok (σ.refIndex + 1) m (c ++ e)).str C.cfg.uid) σ
      (σ.tagged (openTag (tagName m)) (closeTag (tagName m))) := by
  unfold fSpan
  simp only [Mat.grp, Mat.get?, alLookup]
  simp only [Nat.reduceEqDiff, if_false, if_true, Option.getD_some, spanTag_marker hm, parseAttrs_nil, pure_bind]
  refine (runs_ofR _ σ).bind ?_
  refine (runs_spanN_none n (safe_none hc) σ).bind ?_
  have hj : joinAttrs ({} : BAttrs).html = [] := rfl
  have e1 : t!"<" ++ tagName m ++ joinAttrs ({} : BAttrs).html ++ t!">" = openTag (tagName m) := by simp [hj, openTag]
  have e2 : t!"</" ++ tagName m ++ t!">" = closeTag (tagName m) := rfl
  rw [e1, e2]
  refine (runs_storeTags _ _ σ).bind ?_
  have e3 : (specialOptions [] []).1 ++ ospan C.cfg.uid (σ.refIndex + 1) ++ c ++ e ++ cspan C.cfg.uid (σ.refIndex + 2) ++ (specialOptions [] []).2 =
      (Itm.tok (σ.refIndex + 1) m (c ++ e)).str C.cfg.uid := by
    simp [specialOptions, Itm.str]
  rw [← e3]
  exact Runs.pure _ _

/-! ## One marker -/

/-- White space or the beginning of the text before. -/
def AfterGap (pre : Str) : Prop := pre = [] ∨ ∃ c p, pre = c :: p ∧ isWs c = true

structure ItmOk (i : Itm) : Prop where
  mark : i.mark ∈ markers
  safe : ∀ c ∈ i.text, Safe c
  text : SpanText i.mark i.text

/-- White space before the marked parts, white space or punctuation after them. -/
def Spaced (z : Str) : List (Itm × Str) → Prop
  | [] => True
  | [(_, g)] => AtGap (g ++ z)
  | (_, g) :: p :: xs => (g ≠ [] ∧ AtGap g) ∧ (∃ g' c, g = g' ++ [c] ∧ isWs c = true) ∧ Spaced z (p :: xs)

structure MixOk (z : Str) (xs : List (Itm × Str)) : Prop where
  items : ∀ p ∈ xs, ItmOk p.1
  gaps : ∀ p ∈ xs, ∀ c ∈ p.2, Safe c
  spaced : Spaced z xs

def skel (p : Itm × Str) : Str × Str × Str := (p.1.mark, p.1.text, p.2)

/-- The tags of a marked part have been stored. -/
def Known (σ : PState) : Itm → Prop
  | .raw _ _ => True
  | .tok n m _ => n + 1 ≤ σ.refIndex ∧ alLookup n σ.refCache = some (openTag (tagName m)) ∧
      alLookup (n + 1) σ.refCache = some (closeTag (tagName m))

/-- More tags have been stored. -/
def Ext (σ σ' : PState) : Prop :=
  ∃ k c, σ' = { σ with refIndex := k, refCache := c } ∧ σ.refIndex ≤ k ∧
    ∀ j ≤ σ.refIndex, alLookup j c = alLookup j σ.refCache

theorem Ext.refl (σ : PState) : Ext σ σ := ⟨σ.refIndex, σ.refCache, rfl, Nat.le_refl _, fun _ _ => rfl⟩

theorem Ext.trans {a b c : PState} (h : Ext a b) (h' : Ext b c) : Ext a c := by
  obtain ⟨k, d, rfl, h1, h2⟩ := h
  obtain ⟨k', d', rfl, h3, h4⟩ := h'
  refine ⟨k', d', rfl, Nat.le_trans h1 h3, ?_⟩
  intro j hj
  rw [h4 j (Nat.le_trans hj h1), h2 j hj]

theorem Ext.tagged (o c : Str) (σ : PState) : Ext σ (σ.tagged o c) := by
  refine ⟨_, _, rfl, by omega, ?_⟩
  intro j hj
  rw [alLookup_imInsert, if_neg (by omega), alLookup_imInsert, if_neg (by omega)]

theorem Known.mono {σ σ' : PState} {i : Itm} (h : Known σ i) (he : Ext σ σ') : Known σ' i := by
  obtain ⟨k, d, rfl, h1, h2⟩ := he
  cases i with
  | raw m t => trivial
  | tok n m t =>
    obtain ⟨a, b, c⟩ := h
    exact ⟨Nat.le_trans a h1, by rw [← b]; exact h2 _ (by omega), by rw [← c]; exact h2 _ a⟩

theorem Known.tagged (m t : Str) (σ : PState) :
    Known (σ.tagged (openTag (tagName m)) (closeTag (tagName m))) (.tok (σ.refIndex + 1) m t) := by
  refine ⟨Nat.le_refl _, ?_, ?_⟩
  · simp only [PState.tagged]
    rw [alLookup_imInsert, if_neg (by omega), alLookup_imInsert, if_pos rfl]
  · simp only [PState.tagged]
    rw [alLookup_imInsert, if_pos rfl]

def raws (xs : List (Itm × Str)) : Nat := xs.countP (fun p => p.1.isRaw)

theorem spaced_tail {z : Str} {p : Itm × Str} {xs : List (Itm × Str)} (h : Spaced z (p :: xs)) : Spaced z xs := by
  cases xs with
  | nil => trivial
  | cons q xs => exact h.2.2

theorem MixOk.tail {z : Str} {p : Itm × Str} {xs : List (Itm × Str)} (h : MixOk z (p :: xs)) : MixOk z xs :=
  ⟨fun q hq => h.items q (List.mem_cons_of_mem _ hq), fun q hq => h.gaps q (List.mem_cons_of_mem _ hq), spaced_tail h.spaced⟩

theorem AtGap.append {g : Str} (h : AtGap g) (hne : g ≠ []) (r : Str) : AtGap (g ++ r) := by
  rcases h with h | ⟨d, y, rfl, hd⟩ | ⟨p, c, y, rfl, hp, hc⟩
  · exact absurd h hne
  · exact .inr (.inl ⟨d, y ++ r, rfl, hd⟩)
  · exact .inr (.inr ⟨p, c, y ++ r, rfl, hp, hc⟩)

theorem spaced_after {p : Itm × Str} {xs : List (Itm × Str)} {z : Str} (h : Spaced z (p :: xs)) (uid : Str) :
    AtGap (p.2 ++ mix uid z xs) := by
  cases xs with
  | nil => exact h
  | cons q xs => exact h.1.2.append h.1.1 _

theorem spaced_before {z : Str} {p q : Itm × Str} {xs : List (Itm × Str)} (h : Spaced z (p :: q :: xs)) (pre : Str) :
    AfterGap (p.2.reverse ++ pre) := by
  obtain ⟨_, ⟨g', c, h2, hc⟩, -⟩ := h
  exact .inr ⟨c, g'.reverse ++ pre, by rw [h2]; simp, hc⟩

theorem AtGap.safeHead {z : Str} (h : AtGap z) : SafeHead z := by
  intro c z' e
  rcases h with rfl | ⟨d, z'', rfl, hd⟩ | ⟨d, x, z'', rfl, hd, -⟩
  · cases e
  · simp at e
    rw [← e.1]
    rcases hd with rfl | rfl <;> decide
  · simp at e
    rw [← e.1]
    rcases hd with rfl | rfl <;> decide

theorem natStr_safe (n : Nat) : ∀ c ∈ natStr n, Safe c := by
  intro c hc
  have := natStr_alnum hc
  intro h
  have : ∀ c ∈ t!"{[*?-_%+~^", ¬ (48 ≤ c.toNat ∧ c.toNat ≤ 57) := by decide
  exact this c h (natStr_alnum hc)

theorem tok_safe {uid t m : Str} {n : Nat} (hu : ∀ c ∈ uid, Safe c) (ht : ∀ c ∈ t, Safe c) :
    ∀ c ∈ (Itm.tok n m t).str uid, Safe c := by
  have h1 : ∀ c ∈ t!":ospan :cspan", Safe c := by decide
  intro c hc
  simp only [Itm.str, ospan, cspan, List.mem_append] at hc
  rcases hc with ((h | h) | h) | h | ((h | h) | h) | h
  · exact hu c h
  · exact natStr_safe _ c h
  · exact h1 c (by simp at h ⊢; grind)
  · exact ht c h
  · exact h1 c (by simp at h ⊢; grind)
  · exact hu c h
  · exact natStr_safe _ c h
  · exact h1 c (by simp at h ⊢; grind)

/-- What the pattern of the marker `m` does; `ms` are the markers left to be done. -/
def PassTo (C : Ctx) (z m : Str) (ms : List Str) (n : Nat) (pre : Str) (σ : PState) (xs : List (Itm × Str)) : Prop :=
  ∃ xs' σ', ScanP C (spanShape m) (fSpan C (spanN C (n + 1))) pre (mix C.cfg.uid z xs) σ (mix C.cfg.uid z xs') σ' ∧
    xs'.map skel = xs.map skel ∧ (∀ p ∈ xs', p.1.isRaw = true → p.1.mark ∈ ms) ∧ (∀ p ∈ xs', Known σ' p.1) ∧
    Ext σ σ' ∧ σ'.refIndex + 2 * raws xs' = σ.refIndex + 2 * raws xs

/-- The pattern of one marker. -/
theorem pass {C : Ctx} (hu : ∀ c ∈ C.cfg.uid, Safe c) {z : Str} (hzs : ∀ c ∈ z, Safe c) {m : Str} {ms : List Str} (hm : m ∈ markers)
    (hms : ∀ m' ∈ ms, apart m m') (n : Nat) : ∀ (xs : List (Itm × Str)) (pre : Str) (σ : PState), MixOk z xs →
    (∀ p ∈ xs, p.1.isRaw = true → p.1.mark ∈ m :: ms) → (∀ p ∈ xs, Known σ p.1) → (xs ≠ [] → AfterGap pre) →
    PassTo C z m ms n pre σ xs
  | [], pre, σ, _, _, _, _ => by
    refine ⟨[], σ, ?_, rfl, by simp, by simp, Ext.refl σ, rfl⟩
    rw [mix_nil]
    have := ScanP.of_skips (C := C) (f := fSpan C (spanN C (n + 1))) (σ := σ) (safe_skips hm hzs pre []) .nil
    simpa using this
  | (i, g) :: xs, pre, σ, hok, hr, hk, hp => by
    have hi := hok.items (i, g) (by simp)
    have hg := hok.gaps (i, g) (by simp)
    have hz := spaced_after hok.spaced C.cfg.uid
    have hp' := hp (by simp)
    have hpre : ∀ p : Str, xs ≠ [] → AfterGap (g.reverse ++ p) := by
      intro p hx
      cases xs with
      | nil => exact absurd rfl hx
      | cons q xs => exact spaced_before hok.spaced p
    -- a marked part that stays
    have stay : ∀ s : Str, s = i.str C.cfg.uid → Skips C.U (spanShape m) pre s (g ++ mix C.cfg.uid z xs) →
        (i.isRaw = true → i.mark ∈ ms) → PassTo C z m ms n pre σ ((i, g) :: xs) := by
      intro s hs hsk him
      obtain ⟨xs', σ', h1, h2, h3, h4, h5, h6⟩ := pass hu hzs hm hms n xs (g.reverse ++ ((i.str C.cfg.uid).reverse ++ pre)) σ hok.tail
        (fun p hp => hr p (List.mem_cons_of_mem _ hp)) (fun p hp => hk p (List.mem_cons_of_mem _ hp)) (hpre _)
      subst hs
      refine ⟨(i, g) :: xs', σ', ?_, ?_, ?_, ?_, h5, ?_⟩
      · rw [mix_cons, mix_cons]
        exact ScanP.of_skips hsk (ScanP.of_skips (safe_skips hm hg _ _) h1)
      · simp [h2]
      · intro p hp
        rcases List.mem_cons.1 hp with rfl | hp
        · exact him
        · exact h3 p hp
      · intro p hp
        rcases List.mem_cons.1 hp with rfl | hp
        · exact (hk _ (by simp)).mono h5
        · exact h4 p hp
      · simp only [raws, List.countP_cons] at h6 ⊢
        split <;> omega
    cases i with
    | tok k m' t => exact stay _ rfl (safe_skips hm (tok_safe hu hi.safe) _ _) (by simp [Itm.isRaw])
    | raw m' t =>
      by_cases hmm : m' = m
      · subst hmm
        obtain ⟨c, e, hce, hmatch⟩ := span_match (U := C.U) (pre := pre) hi.mark hi.text hz hp'
        change c ++ e = t at hce
        obtain ⟨xs', σ', h1, h2, h3, h4, h5, h6⟩ := pass hu hzs hm hms n xs (g.reverse ++ ((m' ++ (t ++ m')).reverse ++ pre))
          (σ.tagged (openTag (tagName m')) (closeTag (tagName m'))) hok.tail
          (fun p hp => hr p (List.mem_cons_of_mem _ hp))
          (fun p hp => (hk p (List.mem_cons_of_mem _ hp)).mono (Ext.tagged _ _ σ)) (hpre _)
        refine ⟨(.tok (σ.refIndex + 1) m' t, g) :: xs', σ', ?_, ?_, ?_, ?_, (Ext.tagged _ _ σ).trans h5, ?_⟩
        · rw [mix_cons, mix_cons]
          have hc : ∀ x ∈ c, Safe x := fun x hx => hi.safe x (by change x ∈ t; rw [← hce]; simp [hx])
          have hit := ScanP.hit (C := C) (r := spanShape m') (f := fSpan C (spanN C (n + 1))) (pre := pre) (w := m' ++ (t ++ m'))
            (rest := g ++ mix C.cfg.uid z xs) (σ := σ) (by simpa [Itm.mark, Itm.text] using hmatch)
            (by simp [marker_ne hm]) (fun gap => runs_fSpan hm hc) (ScanP.of_skips (safe_skips hm hg _ _) h1)
          rw [hce] at hit
          exact hit
        · simp [h2, skel, Itm.mark, Itm.text]
        · intro p hp
          rcases List.mem_cons.1 hp with rfl | hp
          · simp [Itm.isRaw]
          · exact h3 p hp
        · intro p hp
          rcases List.mem_cons.1 hp with rfl | hp
          · exact (Known.tagged m' t σ).mono h5
          · exact h4 p hp
        · simp only [raws, List.countP_cons, Itm.isRaw, PState.tagged] at h6 ⊢
          simp only [if_true, Bool.false_eq_true, if_false]
          omega
      · have hin : m' ∈ ms := by
          have := hr (.raw m' t, g) (by simp) rfl
          rcases List.mem_cons.1 this with h | h
          · exact absurd h hmm
          · exact h
        refine stay _ rfl ?_ (fun _ => hin)
        have hap := hms m' hin
        have hth : SafeHead ((t ++ m') ++ (g ++ mix C.cfg.uid z xs)) := by
          obtain ⟨a, u, ha, -⟩ := hi.text.head
          simp only [Itm.text] at ha
          intro c z' e
          rw [ha] at e
          simp at e
          exact hi.safe c (by simp only [Itm.text]; rw [ha, e.1]; simp)
        have := (apart_miss (U := C.U) hm hi.mark hap hth pre).append
          ((safe_skips (U := C.U) (rest := m' ++ (g ++ mix C.cfg.uid z xs)) hm hi.safe _).append
            (apart_miss (U := C.U) hm hi.mark hap (AtGap.safeHead hz) _))
        exact this

/-! ## All markers -/

theorem spaced_skel {z : Str} : ∀ {xs ys : List (Itm × Str)}, ys.map skel = xs.map skel → Spaced z xs → Spaced z ys
  | [], ys, e, _ => by cases ys with
    | nil => trivial
    | cons y ys => simp at e
  | [(i, g)], ys, e, h => by
    match ys, e with
    | _ :: _ :: _, e => simp at e
    | [(j, g')], e =>
      simp only [List.map_cons, List.map_nil, List.cons.injEq, and_true, skel, Prod.mk.injEq] at e
      have h' : AtGap (g ++ z) := h
      change AtGap (g' ++ z)
      rw [e.2.2]; exact h'
  | (i, g) :: p :: xs, ys, e, h => by
    match ys, e with
    | [_], e => simp at e
    | (j, g') :: q :: ys, e =>
      simp only [List.map_cons, List.cons.injEq] at e
      have e' : g' = g := by have := e.1; simp only [skel, Prod.mk.injEq] at this; exact this.2.2
      obtain ⟨h1, h2, h3⟩ := h
      refine ⟨by rw [e']; exact h1, by rw [e']; exact h2, ?_⟩
      exact spaced_skel (xs := p :: xs) (by simp [e.2]) h3

theorem skel_mem {xs ys : List (Itm × Str)} (e : ys.map skel = xs.map skel) {p : Itm × Str} (hp : p ∈ ys) :
    ∃ q ∈ xs, q.1.mark = p.1.mark ∧ q.1.text = p.1.text ∧ q.2 = p.2 := by
  have : skel p ∈ xs.map skel := by rw [← e]; exact List.mem_map_of_mem hp
  obtain ⟨q, hq, h⟩ := List.mem_map.1 this
  simp only [skel, Prod.mk.injEq] at h
  exact ⟨q, hq, h⟩

theorem MixOk.of_skel {z : Str} {xs ys : List (Itm × Str)} (h : MixOk z xs) (e : ys.map skel = xs.map skel) : MixOk z ys := by
  constructor
  · intro p hp
    obtain ⟨q, hq, h1, h2, -⟩ := skel_mem e hp
    obtain ⟨a, b, c⟩ := h.items q hq
    rw [h1] at a c
    rw [h2] at b c
    exact ⟨a, b, c⟩
  · intro p hp
    obtain ⟨q, hq, -, -, h3⟩ := skel_mem e hp
    rw [← h3]; exact h.gaps q hq
  · exact spaced_skel e h.spaced

theorem skel_nil {xs ys : List (Itm × Str)} (e : ys.map skel = xs.map skel) : ys ≠ [] → xs ≠ [] := by
  rintro h rfl; simp at e; exact h e

theorem runs_multi {C : Ctx} (hu : ∀ c ∈ C.cfg.uid, Safe c) {w0 z : Str} (hw : ∀ c ∈ w0, Safe c) (hzs : ∀ c ∈ z, Safe c) (n : Nat) :
    ∀ (ms : List Str), (∀ m ∈ ms, m ∈ markers) → ms.Pairwise apart → ∀ (xs : List (Itm × Str)) (σ : PState), MixOk z xs →
    (∀ p ∈ xs, p.1.isRaw = true → p.1.mark ∈ ms) → (∀ p ∈ xs, Known σ p.1) → (xs ≠ [] → AfterGap w0.reverse) →
    ∃ xs' σ', Runs C (multiReplaceWithOne C (fSpan C (spanN C (n + 1))) (ms.map spanShape) (w0 ++ mix C.cfg.uid z xs))
        (w0 ++ mix C.cfg.uid z xs') σ σ' ∧
      xs'.map skel = xs.map skel ∧ (∀ p ∈ xs', p.1.isRaw = false) ∧ (∀ p ∈ xs', Known σ' p.1) ∧
      Ext σ σ' ∧ σ'.refIndex = σ.refIndex + 2 * raws xs
  | [], _, _, xs, σ, _, hr, hk, _ => by
    refine ⟨xs, σ, Runs.pure _ _, rfl, ?_, hk, Ext.refl σ, ?_⟩
    · intro p hp
      cases h : p.1.isRaw with
      | false => rfl
      | true => have := hr p hp h; simp at this
    · have : raws xs = 0 := by
        rw [raws, List.countP_eq_zero]
        intro p hp h
        have := hr p hp h; simp at this
      omega
  | m :: ms, hms, hap, xs, σ, hok, hr, hk, hp => by
    have hm := hms m (by simp)
    rw [List.pairwise_cons] at hap
    obtain ⟨ys, σ1, h1, h2, h3, h4, h5, h6⟩ := pass hu hzs hm hap.1 n xs w0.reverse σ hok hr hk hp
    obtain ⟨zs, σ2, g1, g2, g3, g4, g5, g6⟩ := runs_multi hu hw hzs n ms (fun m' h => hms m' (List.mem_cons_of_mem _ h)) hap.2 ys σ1
      (hok.of_skel h2) h3 h4 (fun h => hp (skel_nil h2 h))
    refine ⟨zs, σ2, ?_, by rw [g2, h2], g3, g4, h5.trans g5, by omega⟩
    rw [List.map_cons, multiReplaceWithOne]
    refine Runs.bind (ScanP.runs (spanShape_nonnull m hm) ?_ (ScanP.of_skips (safe_skips hm hw _ _) ?_)) g1
    · intro m; rfl
    · simpa using h1

/-- Inline markup: every marked part is put between placeholders. -/
theorem runs_span {C : Ctx} (hu : ∀ c ∈ C.cfg.uid, Safe c) {w0 z : Str} (hw : ∀ c ∈ w0, Safe c) (hzs : ∀ c ∈ z, Safe c) {xs : List (Itm × Str)} {σ : PState}
    (hd : σ.spanDepth + 1 ≤ C.cfg.maxSpanDepth) (hok : MixOk z xs) (hk : ∀ p ∈ xs, Known σ p.1) (hp : xs ≠ [] → AfterGap w0.reverse) :
    ∃ xs' σ', Runs C (span C (w0 ++ mix C.cfg.uid z xs)) (w0 ++ mix C.cfg.uid z xs') σ σ' ∧
      xs'.map skel = xs.map skel ∧ (∀ p ∈ xs', p.1.isRaw = false) ∧ (∀ p ∈ xs', Known σ' p.1) ∧
      Ext σ σ' ∧ σ'.refIndex = σ.refIndex + 2 * raws xs := by
  obtain ⟨ys, σ1, h1, h2, h3, h4, h5, h6⟩ := runs_multi (C := C) hu hw hzs C.cfg.maxSpanDepth markers (fun _ h => h) markers_apart xs
    { σ with spanDepth := σ.spanDepth + 1 } hok (fun p hp _ => (hok.items p hp).mark)
    (fun p hp => by have := hk p hp; cases h : p.1 <;> rw [h] at this <;> exact this) hp
  obtain ⟨k, c, rfl, h7, h8⟩ := h5
  refine ⟨ys, { σ with refIndex := k, refCache := c }, ?_, h2, h3, ?_, ⟨k, c, rfl, h7, h8⟩, h6⟩
  · unfold span spanN
    refine (runs_spanEnter σ).bind ?_
    rw [if_pos hd, spanPatterns_eq]
    refine h1.bind ((runs_spanLeave _).bind ?_)
    exact Runs.pure _ _
  · intro p hp
    have := h4 p hp
    cases h : p.1 <;> rw [h] at this <;> exact this

end Rustextile
