import Verif.Specials
import Verif.InlineText
import Verif.Slots

/-!
# Links: what the patterns find
-/

namespace Rustextile

open Prog

/-! ## The pattern of a link -/

def linkMark : Str := t!"linkStartMarker:"

/-- Any character, as the pattern says it. -/
def anyRe : Re := .alt (.set true [.chr '\n']) (.set false [.chr '\n'])

def urlSet : List Item := [.cls .space, .chr '|', .chr '^', .chr '\'', .chr '"', .chr '*']

theorem LINK_PRE_shape : LINK_PRE_RE = .alt (.grp 1 (.set false [.chr '['])) .eps := by kernel_rfl

theorem LINK_TAIL_shape : LINK_TAIL = lits t!"\"" (.seq (.grp 2 (.star false anyRe)) (lits t!"\":" (.grp 3 (.star true (.set true urlSet))))) := by
  kernel_rfl

theorem any_all (U : Uni) (c : Cur) (s : Caps) : anyRe.all U c s = (Re.set true []).all U c s := by
  obtain ⟨pre, rest⟩ := c
  cases rest with
  | nil => rfl
  | cons x xs =>
    rw [anyRe, all_alt, all_set_cons, all_set_cons, all_set_cons]
    by_cases h : x = '\n'
    · subst h; simp [evalSet, Item.eval_chr]
    · simp [evalSet, Item.eval_chr, h]

theorem any_star (U : Uni) (g : Bool) (c : Cur) (s : Caps) : (Re.star g anyRe).all U c s = (Re.star g (.set true [])).all U c s := by
  have : (fun c s => anyRe.all U c s) = (fun c s => (Re.set true []).all U c s) := by
    funext c s; exact any_all U c s
  simp only [Re.all] at this ⊢
  rw [this]

/-- A character of an address, as the pattern sees it. -/
def InUrl (c : Char) : Prop := isWs c = false ∧ c ∉ t!"|^'\"*"

theorem urlSet_eval {U : Uni} {c : Char} : evalSet U true urlSet c = true ↔ InUrl c := by
  have : evalSet U true urlSet c = !(isWs c || decide (c ∈ t!"|^'\"*")) := by
    simp only [evalSet, urlSet, List.any_cons, List.any_nil, Item.eval_chr]
    simp only [Item.eval, UC.eval]
    by_cases h1 : isWs c <;> simp [h1, List.mem_cons]
    rfl
  rw [this]
  unfold InUrl
  cases isWs c <;> simp

theorem link_head {uid pre t url rest : Str} {U : Uni} (hu : ∀ r, uid ≠ '[' :: r) (hne : uid ≠ []) (ht : '"' ∉ t) (hurl : ∀ c ∈ url, InUrl c)
    (hr : ∀ x, rest.head? = some x → ¬ InUrl x) :
    (mkPat uid .links).matchAt U ⟨pre, (uid ++ linkMark ++ ('"' :: (t ++ '"' :: ':' :: url))) ++ rest⟩ =
      some (⟨(uid ++ linkMark ++ ('"' :: (t ++ '"' :: ':' :: url))).reverse ++ pre, rest⟩, [(3, url), (2, t)]) := by
  rw [Re.matchAt_eq]
  have e0 : mkPat uid .links = .seq LINK_PRE_RE (.seq (Re.lit (uid ++ linkMark)) LINK_TAIL) := rfl
  rw [e0, all_seq, LINK_PRE_shape, all_alt]
  have e1 : (Re.grp 1 (.set false [.chr '['])).all U ⟨pre, (uid ++ linkMark ++ ('"' :: (t ++ '"' :: ':' :: url))) ++ rest⟩ [] = [] := by
    cases hl : (Re.grp 1 (.set false [.chr '['])).all U ⟨pre, (uid ++ linkMark ++ ('"' :: (t ++ '"' :: ':' :: url))) ++ rest⟩ [] with
    | nil => rfl
    | cons p l =>
      exfalso
      obtain ⟨c', s', h1, -⟩ := (mem_grp (U := U) (p := p)).1 (by rw [hl]; simp)
      obtain ⟨x, xs, e, hx, -⟩ := mem_set.1 h1
      rw [evalSet_chr, beq_iff_eq] at hx
      subst hx
      cases uid with
      | nil => exact hne rfl
      | cons y u =>
        simp at e
        exact hu u (by rw [e.1])
  rw [e1, List.nil_append]
  simp only [Re.all, List.flatMap_cons, List.flatMap_nil, List.append_nil]
  rw [show (uid ++ linkMark ++ ('"' :: (t ++ '"' :: ':' :: url))) ++ rest = (uid ++ linkMark) ++ (t!"\"" ++ (t ++ (t!"\":" ++ (url ++ rest)))) by simp,
    Re.lit_all, if_pos (by simp)]
  simp only [List.flatMap_cons, List.flatMap_nil, List.append_nil, List.drop_left, LINK_TAIL_shape]
  rw [lits_hit, all_seq]
  simp only [Re.all, List.flatMap_map]
  rw [show starAll (fun c s => anyRe.all U c s) false (t ++ (t!"\":" ++ (url ++ rest)))
      ⟨t!"\"".reverse ++ ((uid ++ linkMark).reverse ++ pre), t ++ (t!"\":" ++ (url ++ rest))⟩ [] =
      (Re.star false anyRe).all U ⟨t!"\"".reverse ++ ((uid ++ linkMark).reverse ++ pre), t ++ (t!"\":" ++ (url ++ rest))⟩ [] from rfl, any_star]
  obtain ⟨l, hl⟩ := lazy_head (U := U) (s := []) (t := t!"\":" ++ (url ++ rest)) (c := t) (pre := t!"\"".reverse ++ ((uid ++ linkMark).reverse ++ pre))
    (k := fun q => (lits t!"\":" (.grp 3 (.star true (.set true urlSet)))).all U q.1
      ((2, between ⟨t!"\"".reverse ++ ((uid ++ linkMark).reverse ++ pre), t ++ (t!"\":" ++ (url ++ rest))⟩ q.1) :: q.2))
    (y := (⟨(uid ++ linkMark ++ ('"' :: (t ++ '"' :: ':' :: url))).reverse ++ pre, rest⟩, [(3, url), (2, t)]))
    (fun u v e hv => lits_none (by
      cases v with
      | nil => exact absurd rfl hv
      | cons y v =>
        rintro ⟨z, hz⟩
        simp at hz
        exact ht (by rw [e, hz.1]; simp))) (by
      simp only
      rw [lits_hit]
      obtain ⟨l, hl⟩ := star_greedy_head (U := U) (n := true) (it := urlSet) (w := url) (rest := rest) (s := (2, t) :: [])
        (pre := t!"\":".reverse ++ (t.reverse ++ (t!"\"".reverse ++ ((uid ++ linkMark).reverse ++ pre)))) (fun c hc => urlSet_eval.2 (hurl c hc))
        (fun x hx => by
          have := hr x hx
          rw [← urlSet_eval (U := U)] at this
          simpa using this)
      have e3 : between ⟨t!"\"".reverse ++ ((uid ++ linkMark).reverse ++ pre), t ++ (t!"\":" ++ (url ++ rest))⟩
        ⟨t.reverse ++ (t!"\"".reverse ++ ((uid ++ linkMark).reverse ++ pre)), t!"\":" ++ (url ++ rest)⟩ = t := by simp [between]
      rw [e3]
      refine ⟨_, by rw [show (Re.grp 3 (.star true (.set true urlSet))).all U
        ⟨t!"\":".reverse ++ (t.reverse ++ (t!"\"".reverse ++ ((uid ++ linkMark).reverse ++ pre))), url ++ rest⟩ [(2, t)] =
        ((Re.star true (.set true urlSet)).all U ⟨t!"\":".reverse ++ (t.reverse ++ (t!"\"".reverse ++ ((uid ++ linkMark).reverse ++ pre))), url ++ rest⟩ [(2, t)]).map
          (fun p => (p.1, (3, between ⟨t!"\":".reverse ++ (t.reverse ++ (t!"\"".reverse ++ ((uid ++ linkMark).reverse ++ pre))), url ++ rest⟩ p.1) :: p.2)) from rfl,
        hl, List.map_cons]; simp [between]; rfl⟩)
  rw [hl]; rfl

theorem link_none {uid pre xs : Str} {x : Char} {U : Uni} (hx : x ≠ '[') (h : ¬ uid ++ linkMark <+: x :: xs) :
    (mkPat uid .links).matchAt U ⟨pre, x :: xs⟩ = none := by
  rw [Re.matchAt_none]
  cases hl : (mkPat uid .links).all U ⟨pre, x :: xs⟩ [] with
  | nil => rfl
  | cons p l =>
    exfalso
    have e0 : mkPat uid .links = .seq LINK_PRE_RE (.seq (Re.lit (uid ++ linkMark)) LINK_TAIL) := rfl
    have hp : p ∈ (mkPat uid .links).all U ⟨pre, x :: xs⟩ [] := by rw [hl]; simp
    rw [e0] at hp
    obtain ⟨c1, s1, g1, g2⟩ := mem_seq.1 hp
    rw [LINK_PRE_shape, mem_alt] at g1
    rcases g1 with g1 | g1
    · obtain ⟨c2, s2, g3, -⟩ := mem_grp.1 g1
      obtain ⟨y, ys, e, hy, -⟩ := mem_set.1 g3
      rw [evalSet_chr, beq_iff_eq] at hy
      simp at e
      exact hx (e.1.trans hy)
    · have := mem_eps.1 g1
      cases this
      obtain ⟨c2, s2, g3, -⟩ := mem_seq.1 g2
      rw [Re.lit_all, if_neg (fun hp => h (List.isPrefixOf_iff_prefix.1 hp))] at g3
      cases g3

theorem links_nonnull {uid : Str} : (mkPat uid .links).nonnull = true := by
  have e0 : mkPat uid .links = .seq LINK_PRE_RE (.seq (Re.lit (uid ++ linkMark)) LINK_TAIL) := rfl
  rw [e0]
  have : LINK_TAIL.nonnull = true := by decide +kernel
  simp [Re.nonnull, this]

/-! ## Texts with placeholders have no marker -/

theorem Keyed.colon_append {base w r : Str} (h : Keyed (uidOf base) w) (hr : Coloned r) : Coloned (w ++ r) := by
  induction h with
  | nil => exact hr
  | char hc _ ih => exact .cons hc ih
  | key => rw [key_eq]; simp only [List.append_assoc, List.cons_append]; exact .ref

theorem uid_colon (base r : Str) : Coloned (uidOf base ++ r) := by
  have : uidOf base ++ r = refWord ++ ':' :: (base ++ ':' :: r) := by simp [uidOf, refWord]
  rw [this]; exact .ref

theorem Keyed.no_mark {base : Str} (hb : Spec.PlainBase base) {k : Str} (hk : ∃ c k', k = c :: k' ∧ isDigitC c = false) {w r : Str}
    (h : Keyed (uidOf base) w) (hr : Coloned r) : ∀ u v, w = u ++ v → v ≠ [] → ¬ uidOf base ++ k <+: v ++ r := by
  have pre : ∀ {x : Str}, uidOf base ++ k <+: x → uidOf base <+: x := fun hx => (List.prefix_append _ _).trans hx
  induction h with
  | nil => intro u v e hv; simp at e; exact absurd e.2 hv
  | @char c t hc ht ih =>
    intro u v e hv hp
    cases u with
    | nil =>
      rw [List.nil_append] at e
      subst e
      exact Coloned.no_uid (ht.colon_append hr) (pre hp)
    | cons x u => simp at e; exact ih u v e.2 hv hp
  | @key n t ht ih =>
    intro u v e hv hp
    rcases List.append_eq_append_iff.1 e with ⟨s, rfl, e2⟩ | ⟨s, e1, rfl⟩
    · exact ih s v e2 hv hp
    · cases s with
      | nil => exact ih [] t rfl (by simpa using hv) (by simpa using hp)
      | cons y s =>
        cases u with
        | nil =>
          rw [List.nil_append] at e1
          rw [← e1] at hp
          obtain ⟨c, k', rfl, hd⟩ := hk
          obtain ⟨d, ds, hds⟩ := natStr_cons n
          obtain ⟨z, hz⟩ := hp
          simp only [shelfKey, hds, List.append_assoc, List.append_cancel_left_eq, List.cons_append, List.cons.injEq] at hz
          have := natStr_digits n d (by rw [hds]; simp)
          rw [← hz.1, hd] at this; cases this
        | cons x u =>
          exact uid_inside (ds := natStr n) (w := t!"shelve") (base_colon hb) (natStr_plain n) (by decide) (u := x :: u) (v := s) (rest := t ++ r) (by simp)
            (by rw [← e1]; simp [shelfKey]) (by simpa using pre hp)

/-! ## Where links start -/

theorem SLICE_shape : SLICE_RE = lits t!"\":" (.look false (.set false [.ncls .space])) := by kernel_rfl

theorem slice_hit {U : Uni} {pre rest : Str} {x : Char} (hx : isWs x = false) :
    SLICE_RE.matchAt U ⟨pre, t!"\":" ++ x :: rest⟩ = some (⟨t!"\":".reverse ++ pre, x :: rest⟩, []) := by
  rw [Re.matchAt_eq, SLICE_shape, lits_hit]
  have : (Re.set false [Item.ncls .space]).all U ⟨t!"\":".reverse ++ pre, x :: rest⟩ [] = [(⟨x :: (t!"\":".reverse ++ pre), rest⟩, [])] := by
    rw [all_set_cons, if_pos]
    simp [evalSet, Item.eval, UC.eval, hx]
  simp only [Re.all] at this ⊢
  simp only [List.reverse_cons, List.reverse_nil, List.nil_append, List.cons_append] at this ⊢
  simp [evalSet, Item.eval, UC.eval, hx]

theorem slice_none {U : Uni} {pre xs : Str} {x : Char} (h : x = '"' → xs.head? ≠ some ':') : SLICE_RE.matchAt U ⟨pre, x :: xs⟩ = none := by
  rw [Re.matchAt_none, SLICE_shape]
  apply lits_none
  rintro ⟨z, hz⟩
  simp at hz
  exact h hz.1.symm (by rw [← hz.2]; rfl)

/-- A link: its text, its address and what follows. -/
abbrev Lk := Str × Str × Str

def lkText (L : List Lk) : Str := L.flatMap (fun p => '"' :: (p.1 ++ '"' :: ':' :: (p.2.1 ++ p.2.2)))

def lkMarked (uid : Str) (L : List Lk) : Str := L.flatMap (fun p => uid ++ linkMark ++ ('"' :: (p.1 ++ '"' :: ':' :: (p.2.1 ++ p.2.2))))

theorem lkText_cons (p : Lk) (L : List Lk) : lkText (p :: L) = '"' :: (p.1 ++ (t!"\":" ++ (p.2.1 ++ (p.2.2 ++ lkText L)))) := by
  simp [lkText]

theorem lkMarked_cons (uid : Str) (p : Lk) (L : List Lk) :
    lkMarked uid (p :: L) = uid ++ linkMark ++ ('"' :: (p.1 ++ (t!"\":" ++ (p.2.1 ++ (p.2.2 ++ lkMarked uid L))))) := by
  simp [lkMarked]

/-- What the slices of a text are. -/
def lkSlices : Str → List Lk → List Str
  | w, [] => [w]
  | w, p :: L => (w ++ '"' :: p.1) :: lkSlices (p.2.1 ++ p.2.2) L

/-- A link, as far as its quotes are concerned. -/
structure LkOk (p : Lk) : Prop where
  text : '"' ∉ p.1
  first : ∃ c u, p.1 = c :: u ∧ isWs c = false ∧ c ≠ ':'
  last : ∃ u c, p.1 = u ++ [c] ∧ isWs c = false
  url : ∃ c u, p.2.1 = c :: u ∧ isWs c = false
  urlq : '"' ∉ p.2.1
  after : '"' ∉ p.2.2

theorem slice_skips {U : Uni} {pre w r : Str} (h : '"' ∉ w) : Skips U SLICE_RE pre w r := by
  intro u x v e
  exact slice_none (fun hx => absurd (by rw [e, hx]; simp) h)

theorem lk_segs {U : Uni} : ∀ (L : List Lk) (w pre : Str), '"' ∉ w → (∀ p ∈ L, LkOk p) →
    ∃ ms tail, Segs U SLICE_RE pre (w ++ lkText L) ms tail ∧
      (ms.flatMap (fun m => m.gap :: (List.range 0).map (fun i => m.grp (i + 1)))) ++ [tail] = lkSlices w L
  | [], w, pre, hw, _ => by
    refine ⟨[], w, ?_, rfl⟩
    have := Re.search_skips (slice_skips (U := U) (pre := pre) (r := []) hw)
    simp only [lkText, List.flatMap_nil, List.append_nil] at this ⊢
    exact Segs.done (by rw [this]; rfl)
  | p :: L, w, pre, hw, h => by
    have hp := h p (by simp)
    obtain ⟨ms, tail, h1, h2⟩ := lk_segs (U := U) L (p.2.1 ++ p.2.2) (t!"\":".reverse ++ ((w ++ '"' :: p.1).reverse ++ pre))
      (by have := hp.urlq; have := hp.after; simp [*]) (fun q hq => h q (by simp [hq]))
    refine ⟨⟨w ++ '"' :: p.1, t!"\":", []⟩ :: ms, tail, ?_, ?_⟩
    · rw [lkText_cons, show w ++ '"' :: (p.1 ++ (t!"\":" ++ (p.2.1 ++ (p.2.2 ++ lkText L)))) =
        (w ++ '"' :: p.1) ++ (t!"\":" ++ ((p.2.1 ++ p.2.2) ++ lkText L)) by simp]
      refine Segs.hit ?_ ?_ (by simp) h1
      · intro u x v e
        apply slice_none
        intro hx
        subst hx
        -- the quote is the one before the text
        have hq : u = w ∧ v = p.1 := by
          rcases List.append_eq_append_iff.1 e with ⟨s, rfl, e2⟩ | ⟨s, e1, e2⟩
          · cases s with
            | nil => simp at e2 ⊢; exact e2.symm
            | cons y s => simp at e2; exact absurd (by rw [e2.2]; simp) hp.text
          · cases s with
            | nil => simp at e1 e2 ⊢; exact ⟨e1.symm, e2⟩
            | cons y s =>
              simp at e2
              exact absurd (by rw [e1, ← e2.1]; simp) hw
        obtain ⟨c, z, e3, -, hc⟩ := hp.first
        rw [hq.2, e3]
        simpa using hc
      · obtain ⟨c, z, e3, hc⟩ := hp.url
        rw [e3]
        exact slice_hit hc
    · rw [lkSlices, ← h2]; rfl

theorem lk_split (U : Uni) {L : List Lk} {w : Str} (hw : '"' ∉ w) (h : ∀ p ∈ L, LkOk p) :
    SLICE_RE.split U 0 (w ++ lkText L) = lkSlices w L := by
  obtain ⟨ms, tail, h1, h2⟩ := lk_segs (U := U) L w [] hw h
  unfold Re.split
  rw [Re.matches_of_Segs h1]
  exact h2

theorem splitChar_none {d : Char} : ∀ {w : Str}, d ∉ w → splitChar d w = [w]
  | [], _ => rfl
  | c :: w, h => by
    simp at h
    rw [splitChar, if_neg (by simpa using fun e => h.1 e.symm), splitChar_none h.2]

theorem splitChar_at {d : Char} : ∀ {w t : Str}, d ∉ w → splitChar d (w ++ d :: t) = w :: splitChar d t
  | [], t, _ => by rw [List.nil_append, splitChar, if_pos (by simp)]
  | c :: w, t, h => by
    simp at h
    rw [List.cons_append, splitChar, if_neg (by simpa using fun e => h.1 e.symm), splitChar_at h.2]

theorem START_NOSPACE_shape : START_NOSPACE_RE = .alt (.seq .bot (.set false [.ncls .space])) (.seq (.set false [.chr '=']) .eot) := by kernel_rfl
theorem END_NOSPACE_shape : END_NOSPACE_RE = .seq (.set false [.ncls .space]) .eot := by kernel_rfl

theorem start_nospace {U : Uni} {c : Char} {u : Str} (hc : isWs c = false) : START_NOSPACE_RE.isMatch U (c :: u) = true := by
  cases hs : START_NOSPACE_RE.search U [] (c :: u) with
  | some q => simp [Re.isMatch, hs]
  | none =>
    exfalso
    have := (Re.search_none_iff.1 hs) [] ⟨[], c :: u⟩ (Adv.refl _)
    rw [Re.matchAt_none, START_NOSPACE_shape, all_alt, all_seq] at this
    simp [Re.all, evalSet, Item.eval, UC.eval, hc] at this

theorem end_nospace {U : Uni} {c : Char} {u : Str} (hc : isWs c = false) : END_NOSPACE_RE.isMatch U (u ++ [c]) = true := by
  cases hs : END_NOSPACE_RE.search U [] (u ++ [c]) with
  | some q => simp [Re.isMatch, hs]
  | none =>
    exfalso
    have := (Re.search_none_iff.1 hs) u ⟨u.reverse, [c]⟩ ⟨rfl, by simp⟩
    rw [Re.matchAt_none, END_NOSPACE_shape, all_seq] at this
    simp [Re.all, evalSet, Item.eval, UC.eval, hc] at this

theorem markSlice_eq {C : Ctx} (hf : 0 < C.fuel) {w : Str} {p : Lk} (hw : '"' ∉ w) (h : LkOk p) :
    markSlice C (w ++ '"' :: p.1) = .ok (w ++ C.cfg.uid ++ linkMark ++ '"' :: p.1) := by
  obtain ⟨c, u, e1, hc, -⟩ := h.first
  obtain ⟨u', c', e2, hc'⟩ := h.last
  have h1 : START_NOSPACE_RE.isMatch C.U p.1 = true := by rw [e1]; exact start_nospace hc
  have h2 : END_NOSPACE_RE.isMatch C.U p.1 = true := by rw [e2]; exact end_nospace hc'
  have h3 : p.1.isEmpty = false := by rw [e1]; rfl
  obtain ⟨f, hf⟩ : ∃ f, C.fuel = f + 1 := ⟨C.fuel - 1, by omega⟩
  unfold markSlice
  rw [if_neg (by simp), splitChar_at hw, splitChar_none h.text, hf]
  simp only [List.reverse_cons, List.reverse_nil, List.nil_append, List.cons_append]
  unfold markLoop
  simp [h1, h2, h3, joinWith, linkMark]

theorem markSlices_eq {C : Ctx} (hf : 0 < C.fuel) : ∀ {L : List Lk} {w : Str}, '"' ∉ w → (∀ p ∈ L, LkOk p) →
    ∃ out, markSlices C (lkSlices w L) = .ok out ∧ out ≠ [] ∧ joinWith t!"\":" out = w ++ lkMarked C.cfg.uid L
  | [], w, _, _ => ⟨[w], rfl, by simp, by simp [joinWith, lkMarked]⟩
  | p :: L, w, hw, h => by
    have hp := h p (by simp)
    obtain ⟨out, h1, h2, h3⟩ := markSlices_eq hf (L := L) (w := p.2.1 ++ p.2.2) (by have := hp.urlq; have := hp.after; simp [*])
      (fun q hq => h q (by simp [hq]))
    refine ⟨(w ++ C.cfg.uid ++ linkMark ++ '"' :: p.1) :: out, ?_, by simp, ?_⟩
    · have hs : ∃ x y, lkSlices (p.2.1 ++ p.2.2) L = x :: y := by
        cases L with
        | nil => exact ⟨_, _, rfl⟩
        | cons q L => exact ⟨_, _, rfl⟩
      obtain ⟨x, y, hs⟩ := hs
      rw [lkSlices]
      rw [hs] at h1 ⊢
      rw [markSlices]
      · rw [markSlice_eq hf hw hp, h1]; rfl
      · simp
    · cases out with
      | nil => exact absurd rfl h2
      | cons x y =>
        rw [joinWith, h3, lkMarked_cons]
        simp

/-- The starts of the links are marked. -/
theorem markStart_eq {C : Ctx} (hf : 0 < C.fuel) {L : List Lk} {w : Str} (hw : '"' ∉ w) (h : ∀ p ∈ L, LkOk p) :
    markStartOfLinks C (w ++ lkText L) = .ok (w ++ lkMarked C.cfg.uid L) := by
  unfold markStartOfLinks
  rw [lk_split C.U hw h]
  obtain ⟨out, h1, h2, h3⟩ := markSlices_eq hf hw h
  cases L with
  | nil => simp [lkSlices, lkText, lkMarked]
  | cons p L =>
    have hs : ∃ x y z, lkSlices w (p :: L) = x :: y :: z := by
      cases L with
      | nil => exact ⟨_, _, _, rfl⟩
      | cons q L => exact ⟨_, _, _, rfl⟩
    obtain ⟨x, y, z, hs⟩ := hs
    rw [hs] at h1 ⊢
    simp only
    rw [h1, ← h3]
    rfl

/-! ## The parts of a link -/

def linkAtts : Re := (match LINK_BLOCK_RE with | .seq .bot (.seq (.grp 1 a) _) => a | _ => .eps)
def linkImg : Re := .seq (.set false [.chr '!']) (.seq (.seq (.set true [.chr '\n']) (.star true (.set true [.chr '\n']))) (.set false [.chr '!']))
def linkAny : Re := .seq (.set true [.chr '\n']) (.star false (.set true [.chr '\n']))
def linkTitle : Re := .seq (.set false [.chr '(']) (.seq (.grp 4 (.seq (.set true [.chr ')']) (.star false (.set true [.chr ')'])))) (.set false [.chr ')']))

theorem LINK_BLOCK_shape : LINK_BLOCK_RE = .seq .bot (.seq (.grp 1 linkAtts) (.seq (.star true (.set false [.cls .space]))
    (.seq (.grp 2 (.alt (.grp 3 linkImg) linkAny)) (.seq (.alt linkTitle .eps) .eot)))) := by kernel_rfl

theorem linkAtts_avoid : linkAtts.avoid linesA = true := by decide +kernel

theorem linkParts_eq {C : Ctx} (hU : UniOk C.U) {t : Str} (hA : linesA.Over t) (hf : ∃ c u, t = c :: u ∧ isWs c = false) :
    linkParts C t = ([], t, []) := by
  obtain ⟨c, u, e, hc⟩ := hf
  unfold linkParts
  cases hm : LINK_BLOCK_RE.captures C.U t with
  | none => rfl
  | some m =>
    obtain ⟨a, rest, e1, -, ht⟩ := Re.captures_takes hm
    rw [LINK_BLOCK_shape] at ht
    obtain ⟨w0, w1, s1, e2, h1, ht⟩ := ht.seq
    obtain ⟨h1b, rfl, rfl⟩ := h1.bot
    have ha : a = [] := by simpa using h1b
    subst ha
    obtain ⟨w2, w3, s2, rfl, h2, ht⟩ := ht.seq
    obtain ⟨s3, h2b, rfl⟩ := h2.grp
    have hh : ∀ r : Str, t = r → ∀ x y, r = x :: y → x = c := by
      intro r hr x y hxy
      rw [e, hxy] at hr
      simp at hr; exact hr.1.symm
    have hw2 : w2 = [] := by
      cases w2 with
      | nil => rfl
      | cons x y =>
        have := Re.avoid_lang hU linesA_wf linkAtts_avoid h2b.lang x y rfl
        exact absurd (hA x (by rw [e1, e2]; simp)) this
    subst hw2
    obtain ⟨w4, w5, s4, rfl, h4, ht⟩ := ht.seq
    have hw4 : w4 = [] := by
      cases w4 with
      | nil => rfl
      | cons x y =>
        have := (lang_star_set.1 h4.lang) x (by simp)
        simp only [evalSet, List.any_cons, List.any_nil, Item.eval, UC.eval] at this
        have hx : x = c := hh _ (by rw [e1, e2]) x _ (by simp; rfl)
        rw [hx, hc] at this; cases this
    subst hw4
    have h4' := h4.nogrp rfl
    have h2' := h2b.nogrp (by decide +kernel)
    subst h4' h2'
    obtain ⟨w6, w7, s5, rfl, h5, ht⟩ := ht.seq
    obtain ⟨s6, h5b, rfl⟩ := h5.grp
    obtain ⟨w8, w9, s7, rfl, h6, ht⟩ := ht.seq
    obtain ⟨rfl, rfl, rfl⟩ := ht.eot
    have hq : s6 = (1, []) :: [] := by
      rcases h5b.alt with h5c | h5c
      · obtain ⟨s8, h5d, -⟩ := h5c.grp
        obtain ⟨x, y, s9, rfl, h7, -⟩ := h5d.seq
        obtain ⟨rfl, -⟩ := h7.chr
        exact absurd (hA '!' (by rw [e1, e2]; simp)) (not_linesA (by decide) (by decide))
      · exact h5c.nogrp rfl
    subst hq
    have hq : w8 = [] ∧ m.caps = (2, w6) :: (1, []) :: [] := by
      rcases h6.alt with h6b | h6b
      · obtain ⟨x, y, s9, rfl, h7, -⟩ := h6b.seq
        obtain ⟨rfl, -⟩ := h7.chr
        exact absurd (hA '(' (by rw [e1, e2]; simp)) (not_linesA (by decide) (by decide))
      · exact h6b.eps
    obtain ⟨rfl, hs⟩ := hq
    have et : t = w6 := by rw [e1, e2]; simp
    simp only
    have g1 : m.grp 1 = [] := by simp [Mat.grp, Mat.get?, hs, alLookup]
    have g2 : m.grp 2 = w6 := by simp [Mat.grp, Mat.get?, hs, alLookup]
    have g4 : m.grp 4 = [] := by simp [Mat.grp, Mat.get?, hs, alLookup]
    rw [g1, g2, g4, ← et, e]
    rfl

/-! ## The end of the address -/

theorem popLoop_keep {U : Uni} {full url : Str} (hu : ∀ c, url.getLast? = some c → c ∉ t!"!?:;.,>])") : ∀ {q f : Str} {first : Bool}
    {k : CharCounter} {pre pop : Str}, (∀ c ∈ q, c ∈ t!"!?:;.,") → q.length < f.length →
    popLoop U full f first ⟨q ++ url.reverse, pop, k, pre⟩ = .ok ⟨url.reverse, q.reverse ++ pop, k, pre⟩ := by
  intro q
  induction q with
  | nil =>
    intro f first k pre pop _ hf
    cases f with
    | nil => simp at hf
    | cons x f =>
      rw [popLoop, List.nil_append]
      cases hr : url.reverse with
      | nil => rfl
      | cons c cs =>
        have hc : url.getLast? = some c := by rw [List.getLast?_eq_head?_reverse, hr]; rfl
        have := hu c hc
        simp only [List.mem_cons, List.not_mem_nil, or_false, not_or] at this
        simp [this]
  | cons c q ih =>
    intro f first k pre pop hq hf
    cases f with
    | nil => simp at hf
    | cons x f =>
      rw [popLoop, List.cons_append]
      have hc := hq c (by simp)
      simp only [List.mem_cons, List.not_mem_nil, or_false] at hc
      have hc' : (c == '!' || c == '?' || c == ':' || c == ';' || c == '.' || c == ',') = true := by
        simp only [Bool.or_eq_true, beq_iff_eq]
        rcases hc with h | h | h | h | h | h <;> simp [h]
      simp only [hc', if_true]
      rw [ih (fun d hd => hq d (List.mem_cons_of_mem _ hd)) (by simpa using hf)]
      simp

theorem trimUrl_eq {C : Ctx} {url p : Str} (hp : ∀ c ∈ p, c ∈ t!"!?:;.,") (hu : ∀ c, url.getLast? = some c → c ∉ t!"!?:;.,>])") (hb : ']' ∉ url) (pre : Str) :
    trimUrl C (url ++ p) pre = .ok (url, p, [], pre) := by
  have hb' : ']' ∉ url ++ p := by
    intro h
    rcases List.mem_append.1 h with h | h
    · exact hb h
    · exact absurd (hp _ h) (by decide)
  have hc : countChar ']' (url ++ p) = 0 := List.count_eq_zero.2 hb'
  unfold trimUrl
  simp only [urlTight, hc, Nat.lt_irrefl, gt_iff_lt, if_false]
  rw [show CharCounter.set ']' (some 0) (CharCounter.new ['[', ']', '(', ')']) = .ok [('[', none), (']', some 0), ('(', none), (')', none)] from rfl]
  have := popLoop_keep (U := C.U) (full := url ++ p) hu (q := p.reverse) (f := ' ' :: (url ++ p)) (first := true)
    (k := [('[', none), (']', some 0), ('(', none), (')', none)]) (pre := pre) (pop := []) (by simpa using hp) (by simp; omega)
  simp only [List.reverse_reverse, List.append_nil] at this
  simp only [Bind.bind, Except.bind, List.reverse_append, this]
  simp [Pure.pure, Except.pure]

/-! ## A link is replaced -/

/-- The address in the link is this one. -/
def LinkTo (C : Ctx) (url href : Str) : Prop :=
  ((UrlBits.parse C.E url).scheme.isEmpty || C.cfg.schemes.contains (UrlBits.parse C.E url).scheme) = true ∧ (UrlBits.parse C.E url).toStr = href

/-- The `rel` attribute. -/
def relAttr : Option Str → Str
  | none => []
  | some r => t!" rel=\"" ++ r ++ t!"\""

theorem runs_shelveUrl {C : Ctx} (u : UrlString) (σ : PState) :
    Runs C (shelveUrl C u) (urlTok C.cfg.uid (σ.refIndex + 1)) σ (σ.cached (u.toHtml C.E)) := by
  unfold shelveUrl
  refine (runs_cacheRef .url _ σ).bind ?_
  exact Runs.pure _ _

theorem ENTITY_amp : ∃ r, ENTITY_RE = .grp 1 (.seq (.set false [.chr '&']) r) := ⟨_, rfl⟩

theorem entity_none {U : Uni} {t : Str} (h : '&' ∉ t) (pre : Str) : ENTITY_RE.search U pre t = none := by
  obtain ⟨r, e⟩ := ENTITY_amp
  apply Re.search_none_of
  intro a b e'
  rw [e, Re.all, all_seq]
  cases b with
  | nil => simp [all_set_nil]
  | cons x b =>
    have : x ≠ '&' := by rintro rfl; exact h (by rw [e']; simp)
    simp [all_set_cons, evalSet_chr, this]

theorem reverse_none {U : Uni} {t : Str} (h : '&' ∉ t) : reverseEncodeHtml U t = .ok t := replaceAllM_none (entity_none h [])

theorem runs_unrestrict {C : Ctx} {t : Str} (h : '&' ∉ t) (σ : PState) : Runs C (unrestrictUrl C t) t σ σ := by
  unfold unrestrictUrl
  split
  · rw [reverse_none h]; exact Runs.pure _ _
  · exact Runs.pure _ _

theorem enc_plain {t : Str} {q s : Bool} (h : ∀ c ∈ t, c ∉ t!"&<>\"'\n\r\t") : encodeHtml t q s = t := by
  induction t with
  | nil => rfl
  | cons c t ih =>
    have hc := h c (by simp)
    simp only [List.mem_cons, List.not_mem_nil, or_false, not_or] at hc
    have := ih (fun d hd => h d (List.mem_cons_of_mem _ hd))
    rw [encodeHtml] at this ⊢
    rw [List.flatMap_cons, this]
    simp [encChar, hc]

theorem quoteattr_plain {t : Str} (h : ∀ c ∈ t, c ∉ t!"&<>\"'\n\r\t") : quoteattr t = t!"\"" ++ t ++ t!"\"" := by
  unfold quoteattr
  rw [enc_plain h]
  have : t.contains '"' = false := by
    rw [← Bool.not_eq_true, List.contains_iff_mem]
    intro hm
    exact h _ hm (by decide)
  simp only [this, Bool.false_eq_true, if_false]

theorem urlTok_chars {base : Str} (hb : Spec.PlainBase base) (n : Nat) : ∀ c ∈ urlTok (uidOf base) n, c ∉ t!"&<>\"'\n\r\t" := by
  intro c hc hm
  have h1 : (48 ≤ c.toNat ∧ c.toNat ≤ 58) ∨ (65 ≤ c.toNat ∧ c.toNat ≤ 122) := by
    simp only [urlTok, uidOf, List.mem_append] at hc
    rcases hc with (((hc | hc) | hc) | hc) | hc
    · revert hc; simp only [List.mem_cons, List.not_mem_nil, or_false]; rintro (rfl | rfl | rfl | rfl | rfl | rfl | rfl | rfl | rfl | rfl | rfl) <;> decide
    · have := hb.chars c hc; omega
    · simp at hc; subst hc; decide
    · have := natStr_alnum hc; omega
    · revert hc; simp only [List.mem_cons, List.not_mem_nil, or_false]; rintro (rfl | rfl | rfl | rfl) <;> decide
  simp only [List.mem_cons, List.not_mem_nil, or_false] at hm
  rcases hm with rfl | rfl | rfl | rfl | rfl | rfl | rfl | rfl <;> revert h1 <;> decide

theorem tag_a {C : Ctx} (hU : UniOk C.U) (t h : Str) (rel : Option Str) (hh : ∀ c ∈ h, c ∉ t!"&<>\"'\n\r\t")
    (hr : ∀ r, rel = some r → ∀ c ∈ r, c ∉ t!"&<>\"'\n\r\t") :
    generateTag C.U t!"a" (some t) (match (generalizing := false) rel with
      | some rel => HtmlAttrs.insert t!"rel" rel (HtmlAttrs.insert t!"href" h ([] : HtmlAttrs))
      | none => HtmlAttrs.insert t!"href" h ([] : HtmlAttrs)) =
    t!"<a href=" ++ '"' :: (h ++ (t!"\"" ++ relAttr rel ++ t!">" ++ t ++ t!"</a>")) := by
  have h1 : (t!"a").isEmpty = false := rfl
  have h2 : (t!"a").all C.U.isAlnum = true := by
    simp [hU.alnum 'a' (by decide)]; decide
  unfold generateTag
  cases rel with
  | none =>
    simp only [h1, h2, Bool.false_eq_true, if_false, Bool.not_true, HtmlAttrs.insert, btInsert, joinAttrs]
    simp [List.filter, attrText, quoteattr_plain hh, relAttr, show (t!"href").all isValidAttrChar = true by decide]
  | some r =>
    have h3 : HtmlAttrs.insert t!"rel" r (HtmlAttrs.insert t!"href" h ([] : HtmlAttrs)) = [(t!"href", h), (t!"rel", r)] := rfl
    simp only [h1, h2, h3, Bool.false_eq_true, if_false, Bool.not_true, joinAttrs]
    simp [List.filter, attrText, quoteattr_plain hh, quoteattr_plain (hr r rfl), relAttr, show (t!"href").all isValidAttrChar = true by decide,
      show (t!"rel").all isValidAttrChar = true by decide]

/-- The text of a link. -/
structure LinkText (U : Uni) (t : Str) : Prop where
  over : linesA.Over t
  nonl : '\n' ∉ t
  first : ∃ c u, t = c :: u ∧ isWs c = false
  last : ∀ c, t.getLast? = some c → isWs c = false
  dollar : t ≠ t!"$"
  quiet : Quiet U t

/-- The address of a link. -/
structure LinkUrl (url : Str) : Prop where
  chars : ∀ c ∈ url, c ∉ t!"&]"
  last : ∀ c, url.getLast? = some c → c ∉ t!"!?:;.,>])"

theorem runs_fLink {C : Ctx} {base : Str} (D : DocCtx C base) (hrel : ∀ r, C.cfg.rel = some r → ∀ c ∈ r, c ∉ t!"&<>\"'\n\r\t")
    {m : Mat} {t url p href : Str} (hm : m.caps = [(3, url ++ p), (2, t)]) (ht : LinkText C.U t) (hu : LinkUrl url)
    (hp : ∀ c ∈ p, c ∈ t!"!?:;.,") (hl : LinkTo C url href) (n : Nat) (σ : PState) :
    Runs C (fLink C (spanN C (n + 1)) m) (shelfKey C.cfg.uid (σ.refIndex + 2) ++ p) σ
      (σ.addressed C.cfg.uid (encodeHtml href true true) t!"<a href=" (t!"\"" ++ relAttr C.cfg.rel ++ t!">" ++ t ++ t!"</a>")) := by
  have g1 : m.grp 1 = [] := by simp [Mat.grp, Mat.get?, hm, alLookup]
  have g2 : m.grp 2 = t := by simp [Mat.grp, Mat.get?, hm, alLookup]
  have g3 : m.grp 3 = url ++ p := by simp [Mat.grp, Mat.get?, hm, alLookup]
  have hne : t.isEmpty = false := by obtain ⟨c, u, rfl, -⟩ := ht.first; rfl
  have hbr : replaceStr t!"\n" C.cfg.brTag t = t := replaceStr_none (containsStr_false_of_mem (c := '\n') (by simp) ht.nonl)
  have htrim : trim t = t := by
    obtain ⟨c, u, e, hc⟩ := ht.first
    unfold trim trimP
    rw [show trimStartP isWs t = t by subst e; simp [trimStartP, hc]]
    exact trimEndP_of_last ht.last
  have htext : ∀ b rs, linkText t url b rs = t := by
    intro b rs; unfold linkText; rw [if_neg ht.dollar]
  unfold fLink
  simp only [g1, g2, g3, hbr, hne, Bool.false_eq_true, if_false, linkParts_eq D.uni ht.over ht.first,
    trimUrl_eq hp hu.last (fun h => hu.chars _ h (by decide)) []]
  refine Runs.bind (a := (url, p, [], [])) (Runs.pure _ _) ?_
  refine Runs.bind (a := url) (runs_unrestrict (fun h => hu.chars _ h (by decide)) σ) ?_
  have h1 := hl.1
  simp only [h1, Bool.not_true, Bool.false_eq_true, if_false]
  refine Runs.bind (runs_getSt σ) ?_
  simp only [htext, htrim]
  have himg : Runs C (image C t) t σ σ := Runs.none (ht.quiet.early IMAGE_RE (by simp [earlyPatterns])) σ
  split
  case' isTrue => refine Runs.bind (a := t) (σ' := σ) (Runs.pure _ _) ?_
  case' isFalse => refine Runs.bind (a := t) (σ' := σ) himg ?_
  all_goals
    refine Runs.bind (a := t) (σ' := σ) (runs_spanN_none n (fun r hr => (ht.quiet.late r (by simp [latePatterns, hr])).1) σ) ?_
    have hg := glyphs_none (C := C) (n := []) ht.quiet.glyph ht.quiet.lt ht.quiet.gt ht.quiet.last (by simp)
    rw [List.append_nil] at hg
    rw [hg]
    refine Runs.bind (runs_shelveUrl _ σ) ?_
    rw [parseAttrs_nil]
    refine Runs.bind (Runs.pure _ _) ?_
    have he : encodeHtml [] false false = [] := rfl
    simp only [he, List.isEmpty_nil, if_true]
    refine Runs.bind (Runs.pure _ _) ?_
    have htag := tag_a (C := C) D.uni t (urlTok C.cfg.uid (σ.refIndex + 1)) C.cfg.rel (by rw [D.uid]; exact urlTok_chars D.plain _) hrel
    have hb : BAttrs.html {} = ([] : HtmlAttrs) := rfl
    rw [hb]
    cases hr : C.cfg.rel <;> simp only [hr] at htag ⊢
    all_goals
      rw [htag]
      refine Runs.bind (Runs.shelve _ _ _) ?_
      simp only [List.nil_append, List.append_nil, UrlString.toHtml, UrlString.toStr, hl.2]
      exact Runs.pure _ _

end Rustextile
