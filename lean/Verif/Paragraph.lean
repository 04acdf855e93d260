import Verif.Ordinary

/-!
# Line breaks in paragraphs and headings
-/

namespace Rustextile

/-- Only the shortest repetition leads to success. -/
theorem star_shortest {U : Uni} {α : Type} {n : Bool} {it : List Item} {s : Caps} (k : Cur × Caps → List α) :
    ∀ {rest pre : Str}, (∀ v r, rest = v ++ r → v ≠ [] → k (⟨v.reverse ++ pre, r⟩, s) = []) →
      ((Re.star true (.set n it)).all U ⟨pre, rest⟩ s).flatMap k = k (⟨pre, rest⟩, s)
  | [], pre, _ => by rw [all_star_nil]; simp
  | x :: xs, pre, h => by
    rw [all_star_cons]
    simp only [if_true, List.flatMap_append, List.flatMap_cons, List.flatMap_nil, List.append_nil]
    have : (if evalSet U n it x = true then (Re.star true (.set n it)).all U ⟨x :: pre, xs⟩ s else []).flatMap k = [] := by
      split
      · rw [List.flatMap_eq_nil_iff]
        intro p hp
        obtain ⟨w, -, h2, h3⟩ := mem_star_set.1 hp
        have := h (x :: w) p.1.rest (by rw [List.cons_append, ← h2.1]) (by simp)
        rcases p with ⟨⟨p1, p2⟩, p3⟩
        simp only at h2 h3 this
        subst h3
        have e := h2.2
        simp only at e
        rw [e]
        simpa using this
      · rfl
    rw [this]; rfl

/-- A greedy repetition of any characters, when what follows can only match at one place. -/
theorem star_any_then {U : Uni} {α : Type} {s : Caps} (k : Cur × Caps → List α) {rest : Str} {x : α} {l : List α} :
    ∀ {w pre : Str}, (∀ v r, rest = v ++ r → v ≠ [] → k (⟨v.reverse ++ (w.reverse ++ pre), r⟩, s) = []) →
      k (⟨w.reverse ++ pre, rest⟩, s) = x :: l →
      ∃ l', ((Re.star true (.set true [])).all U ⟨pre, w ++ rest⟩ s).flatMap k = x :: l'
  | [], pre, h, hk => ⟨l, by rw [List.nil_append, star_shortest k (by simpa using h)]; simpa using hk⟩
  | c :: w, pre, h, hk => by
    obtain ⟨l', hl⟩ := star_any_then k (w := w) (pre := c :: pre) (by simpa using h) (by simpa using hk)
    rw [List.cons_append, all_star_cons]
    simp only [evalSet_nil, if_true, List.flatMap_append]
    rw [hl]
    exact ⟨_, rfl⟩

/-- Tags whose content gets line breaks. -/
def brTags : List Str := [t!"p", t!"h1", t!"h2", t!"h3", t!"h4", t!"h5", t!"h6"]

def openTag (tag : Str) : Str := t!"<" ++ tag ++ t!">"
def closeTag (tag : Str) : Str := t!"</" ++ tag ++ t!">"

/-- The opening tag in `TAG_P_RE`. -/
def pOpen : Re :=
  match TAG_P_RE with
  | .seq a (.seq b (.seq c (.seq d _))) => .seq a (.seq b (.seq c d))
  | _ => .eps

def pClose : Re := .grp 4 (.seq (.set false [.chr '<']) (.seq (.set false [.chr '/'])
  (.seq (.bref 1) (.set false [.chr '>']))))

theorem TAG_P_all (U : Uni) (c : Cur) (s : Caps) : TAG_P_RE.all U c s =
    (pOpen.all U c s).flatMap (fun p => ((Re.star true (.set true [])).all U p.1 p.2).flatMap
      (fun q => pClose.all U q.1 ((3, between p.1 q.1) :: q.2))) := by
  rw [show TAG_P_RE = .seq (.set false [.chr '<']) (.seq (.grp 1 (.alt (.set false [.chr 'p'])
    (.seq (.set false [.chr 'h']) (.set false [.range '1' '6']))))
    (.seq (.grp 2 (.star false (.set true [.chr '>']))) (.seq (.set false [.chr '>'])
      (.seq (.grp 3 (.star true (.set true []))) pClose)))) from rfl]
  rw [show pOpen = .seq (.set false [.chr '<']) (.seq (.grp 1 (.alt (.set false [.chr 'p'])
    (.seq (.set false [.chr 'h']) (.set false [.range '1' '6']))))
    (.seq (.grp 2 (.star false (.set true [.chr '>']))) (.set false [.chr '>']))) from rfl]
  have grp3 : ∀ c s, (Re.grp 3 (.star true (.set true []))).all U c s =
      ((Re.star true (.set true [])).all U c s).map (fun p => (p.1, (3, between c p.1) :: p.2)) := fun _ _ => rfl
  simp only [all_seq, List.flatMap_assoc, grp3, List.flatMap_map]

theorem pOpen_all (U : Uni) (pre t : Str) : ∀ tag ∈ brTags,
    pOpen.all U ⟨pre, openTag tag ++ t⟩ [] =
      [(⟨(openTag tag).reverse ++ pre, t⟩,
        [(2, between ⟨tag.reverse ++ '<' :: pre, '>' :: t⟩ ⟨tag.reverse ++ '<' :: pre, '>' :: t⟩),
         (1, between ⟨'<' :: pre, tag ++ '>' :: t⟩ ⟨tag.reverse ++ '<' :: pre, '>' :: t⟩)])] := by
  intro tag h
  simp only [brTags, List.mem_cons, List.not_mem_nil, or_false] at h
  rcases h with h | h | h | h | h | h | h <;> subst h <;> kernel_rfl

theorem pClose_hit (U : Uni) {tag : Str} {pre z : Str} {s : Caps} (h1 : alLookup 1 s = some tag) :
    pClose.all U ⟨pre, closeTag tag ++ z⟩ s = [(⟨(closeTag tag).reverse ++ pre, z⟩, (4, closeTag tag) :: s)] := by
  have : (Re.seq (.set false [.chr '<']) (.seq (.set false [.chr '/'])
      (.seq (.bref 1) (.set false [.chr '>'])))).all U ⟨pre, closeTag tag ++ z⟩ s =
      [(⟨(closeTag tag).reverse ++ pre, z⟩, s)] := by
    simp only [closeTag, List.cons_append, List.nil_append, List.append_assoc]
    rw [all_seq_set_cons, if_pos (by rw [evalSet_chr]; rfl), all_seq_set_cons, if_pos (by rw [evalSet_chr]; rfl), all_seq]
    have hb : (Re.bref 1).all U ⟨'/' :: '<' :: pre, tag ++ '>' :: z⟩ s =
        [(⟨tag.reverse ++ '/' :: '<' :: pre, '>' :: z⟩, s)] := by
      simp [Re.all, h1, Cur.adv]
    rw [hb]
    simp only [List.flatMap_cons, List.flatMap_nil, List.append_nil]
    rw [all_set_cons, if_pos (by rw [evalSet_chr]; rfl)]
    simp
  unfold pClose
  simp only [Re.all] at this ⊢
  rw [this]
  have ha : Adv ⟨pre, closeTag tag ++ z⟩ (closeTag tag) ⟨(closeTag tag).reverse ++ pre, z⟩ := ⟨rfl, rfl⟩
  simp only [List.map_cons, List.map_nil, ha.between]

theorem pClose_miss (U : Uni) {tag : Str} {c : Cur} {s : Caps} (h1 : alLookup 1 s = some tag)
    (h : ∀ z, c.rest ≠ closeTag tag ++ z) : pClose.all U c s = [] := by
  cases hl : pClose.all U c s with
  | nil => rfl
  | cons p l =>
    exfalso
    have hp : p ∈ pClose.all U c s := by rw [hl]; simp
    rw [pClose, mem_grp] at hp
    obtain ⟨c', s', hp, -⟩ := hp
    simp only [mem_seq, mem_set] at hp
    obtain ⟨c1, s1, ⟨x1, r1, e1, hx1, q1⟩, c2, s2, ⟨x2, r2, e2, hx2, q2⟩, c3, s3, hb, x4, r4, e4, hx4, -⟩ := hp
    simp only [Prod.mk.injEq] at q1 q2
    obtain ⟨rfl, rfl⟩ := q1
    obtain ⟨rfl, rfl⟩ := q2
    simp only [Re.all, h1] at hb
    split at hb
    · rename_i hpre
      obtain ⟨t', ht'⟩ := isPrefixOf_iff.1 hpre
      simp only [List.mem_singleton, Prod.mk.injEq] at hb
      obtain ⟨rfl, rfl⟩ := hb
      simp only at ht' e2
      subst ht'
      simp only [Cur.adv, List.drop_left] at e4
      subst e4
      rw [evalSet_chr, beq_iff_eq] at hx1 hx2 hx4
      subst hx1 hx2 hx4
      subst e2
      exact h r4 (by simp [e1, closeTag])
    · simp at hb

/-- A paragraph or heading is found and taken as a whole. -/
theorem TAG_P_match {U : Uni} {pre t z tag : Str} (ht : tag ∈ brTags)
    (hz : ∀ v r, closeTag tag ++ z = v ++ r → v ≠ [] → ∀ z', r ≠ closeTag tag ++ z') :
    TAG_P_RE.matchAt U ⟨pre, openTag tag ++ (t ++ (closeTag tag ++ z))⟩ =
      some (⟨(closeTag tag).reverse ++ (t.reverse ++ ((openTag tag).reverse ++ pre)), z⟩,
        [(4, closeTag tag), (3, t), (2, []), (1, tag)]) := by
  rw [Re.matchAt_eq, TAG_P_all, pOpen_all U pre _ tag ht]
  have h1 : between ⟨'<' :: pre, tag ++ '>' :: (t ++ (closeTag tag ++ z))⟩
      ⟨tag.reverse ++ '<' :: pre, '>' :: (t ++ (closeTag tag ++ z))⟩ = tag :=
    Adv.between (w := tag) ⟨rfl, rfl⟩
  rw [h1, (Adv.refl _).between]
  simp only [List.flatMap_cons, List.flatMap_nil, List.append_nil]
  have h3 : between ⟨(openTag tag).reverse ++ pre, t ++ (closeTag tag ++ z)⟩
      ⟨t.reverse ++ ((openTag tag).reverse ++ pre), closeTag tag ++ z⟩ = t :=
    Adv.between (w := t) ⟨rfl, rfl⟩
  obtain ⟨l, hl⟩ := star_any_then (U := U) (s := [(2, []), (1, tag)]) (w := t) (pre := (openTag tag).reverse ++ pre)
    (rest := closeTag tag ++ z)
    (x := ((⟨(closeTag tag).reverse ++ (t.reverse ++ ((openTag tag).reverse ++ pre)), z⟩ : Cur),
        ([(4, closeTag tag), (3, t), (2, []), (1, tag)] : Caps))) (l := [])
    (fun q => pClose.all U q.1 ((3, between ⟨(openTag tag).reverse ++ pre, t ++ (closeTag tag ++ z)⟩ q.1) :: q.2))
    (by
      intro v r e hv
      refine pClose_miss U (tag := tag) (by simp [alLookup]) ?_
      exact hz v r e hv)
    (by
      simp only [h3]
      exact pClose_hit U (by simp [alLookup]))
  rw [hl]; rfl

theorem TAG_P_nonnull : TAG_P_RE.nonnull = true := by decide

/-- `TAG_P_RE` matches only at an opening tag. -/
theorem TAG_P_none {U : Uni} {pre rest : Str} (h : ∀ u, rest ≠ '<' :: 'p' :: u ∧ rest ≠ '<' :: 'h' :: u) :
    TAG_P_RE.matchAt U ⟨pre, rest⟩ = none := by
  rw [Re.matchAt_none]
  cases hl : TAG_P_RE.all U ⟨pre, rest⟩ [] with
  | nil => rfl
  | cons p l =>
    exfalso
    obtain ⟨w, hw, lw⟩ := Re.all_lang TAG_P_RE ⟨pre, rest⟩ [] p (by rw [hl]; simp)
    change (Re.seq (.set false [.chr '<']) (.seq (.grp 1 (.alt (.set false [.chr 'p'])
      (.seq (.set false [.chr 'h']) (.set false [.range '1' '6'])))) _)).lang U w at lw
    simp only [lang_seq, lang_chr, lang_grp, lang_alt] at lw
    obtain ⟨_, _, rfl, rfl, u, v, rfl, hu, -⟩ := lw
    have e := hw.1
    simp only at e
    rcases hu with rfl | ⟨_, u', rfl, rfl, -⟩
    · exact (h (v ++ p.1.rest)).1 (by rw [e]; rfl)
    · exact (h (u' ++ (v ++ p.1.rest))).2 (by rw [e]; simp)

/-- No opening tag of a paragraph or heading. -/
def noPTag : Str → Bool
  | '<' :: 'p' :: _ => false
  | '<' :: 'h' :: _ => false
  | _ :: t => noPTag t
  | [] => true

theorem noPTag_cons {x : Char} {t : Str} (h : noPTag (x :: t) = true) :
    (∀ u, x :: t ≠ '<' :: 'p' :: u ∧ x :: t ≠ '<' :: 'h' :: u) ∧ noPTag t = true := by
  unfold noPTag at h
  split at h
  · cases h
  · cases h
  · rename_i y u h1 h2 e
    simp at e; obtain ⟨rfl, rfl⟩ := e
    refine ⟨fun u => ⟨?_, ?_⟩, h⟩
    · intro e; simp at e; exact h1 u e.1 e.2
    · intro e; simp at e; exact h2 u e.1 e.2
  · rename_i e; simp at e

theorem noPTag_search {U : Uni} : ∀ {t pre : Str}, noPTag t = true → TAG_P_RE.search U pre t = none
  | [], pre, _ => Re.search_miss_nil (TAG_P_none (by simp))
  | x :: t, pre, h => by
    rw [Re.search_miss_cons (TAG_P_none (noPTag_cons h).1)]
    exact noPTag_search (noPTag_cons h).2

theorem noPTag_skips {U : Uni} {rest : Str} (hr : ∀ c, rest.head? = some c → c ≠ 'p' ∧ c ≠ 'h') :
    ∀ {t pre : Str}, noPTag t = true → Skips U TAG_P_RE pre t rest
  | [], pre, _ => Skips.nil
  | x :: t, pre, h => by
    refine Skips.cons (TAG_P_none ?_) (noPTag_skips hr (noPTag_cons h).2)
    intro u
    have := (noPTag_cons h).1
    cases t with
    | nil =>
      simp only [List.nil_append]
      constructor <;> (intro e; simp at e; have := hr _ (by rw [e.2]; rfl); simp at this)
    | cons y t =>
      constructor
      · intro e; simp at e; exact (this t).1 (by rw [e.1, e.2.1])
      · intro e; simp at e; exact (this t).2 (by rw [e.1, e.2.1])

/-- What `do_p_br` does with the text of a paragraph. -/
def brText (C : Ctx) (t : Str) : Str :=
  NEWLINE_RE.replaceTempl C.U C.cfg.brTag (BR_NL_RE.replaceTempl C.U t!"\n" t)

theorem doPBr_tag {C : Ctx} {a t z tag : Str} (ht : tag ∈ brTags)
    (ha : noPTag a = true) (hz : noPTag z = true) (hzc : ∀ v r, closeTag tag ++ z = v ++ r → v ≠ [] → ∀ z', r ≠ closeTag tag ++ z') :
    doPBr C (a ++ (openTag tag ++ (t ++ (closeTag tag ++ z)))) =
      a ++ (openTag tag ++ (brText C t ++ (closeTag tag ++ z))) := by
  unfold doPBr
  refine Re.replaceAll_eq TAG_P_nonnull (g := fun w s =>
    let text := BR_NL_RE.replaceTempl C.U t!"\n" (capGrp w s 3)
    let text := NEWLINE_RE.replaceTempl C.U C.cfg.brTag text
    t!"<" ++ capGrp w s 1 ++ capGrp w s 2 ++ t!">" ++ text ++ capGrp w s 4) (fun m => rfl) ?_
  refine Scan.of_skips (noPTag_skips (by simp [openTag]) ha) ?_
  have hm := TAG_P_match (U := C.U) (pre := a.reverse ++ []) (t := t) ht hzc
  have e : openTag tag ++ (t ++ (closeTag tag ++ z)) = (openTag tag ++ (t ++ closeTag tag)) ++ z := by simp
  rw [e] at hm ⊢
  have := Scan.hit (g := fun w s =>
    let text := BR_NL_RE.replaceTempl C.U t!"\n" (capGrp w s 3)
    let text := NEWLINE_RE.replaceTempl C.U C.cfg.brTag text
    t!"<" ++ capGrp w s 1 ++ capGrp w s 2 ++ t!">" ++ text ++ capGrp w s 4)
    (r := TAG_P_RE) (U := C.U) (pre := a.reverse ++ []) (w := openTag tag ++ (t ++ closeTag tag)) (rest := z)
    (s := [(4, closeTag tag), (3, t), (2, []), (1, tag)]) (out := z) (by rw [hm]; simp) (by simp [openTag])
    (Scan.of_none (noPTag_search hz))
  simp only [capGrp, Mat.grp, Mat.get?, alLookup] at this
  simpa [brText, openTag, capGrp, Mat.grp, Mat.get?] using this

theorem doPBr_none {C : Ctx} {t : Str} (h : noPTag t = true) : doPBr C t = t :=
  Re.replaceAll_none _ (noPTag_search h)

theorem pOpen_tag {U : Uni} {c : Cur} {p : Cur × Caps} (h : p ∈ pOpen.all U c []) :
    ∃ tag, alLookup 1 p.2 = some tag ∧ (tag = t!"p" ∨ ∃ d, tag = ['h', d]) := by
  rw [show pOpen = .seq (.set false [.chr '<']) (.seq (.grp 1 (.alt (.set false [.chr 'p'])
    (.seq (.set false [.chr 'h']) (.set false [.range '1' '6']))))
    (.seq (.grp 2 (.star false (.set true [.chr '>']))) (.set false [.chr '>']))) from rfl] at h
  rcases p with ⟨c', s'⟩
  simp only [mem_seq, mem_set, mem_grp, mem_alt] at h
  obtain ⟨c1, s1, ⟨x1, r1, e1, hx1, q1⟩, c2, s2, ⟨c3, s3, h3, q3⟩, c4, s4, ⟨c5, s5, h5, q5⟩, x6, r6, e6, hx6, q6⟩ := h
  simp only [Prod.mk.injEq] at q1 q3 q5 q6
  obtain ⟨rfl, rfl⟩ := q1
  obtain ⟨rfl, rfl⟩ := q3
  obtain ⟨rfl, rfl⟩ := q5
  obtain ⟨rfl, rfl⟩ := q6
  obtain ⟨w, -, -, h6⟩ := mem_star_set.1 h5
  have h6 : s5 = _ := h6
  subst h6
  refine ⟨between ⟨x1 :: c.pre, r1⟩ c2, by simp [alLookup], ?_⟩
  rcases h3 with ⟨x, r, e, hx, q⟩ | ⟨c6, s6, ⟨x, r, e, hx, q⟩, y, r', e', hy, q'⟩
  · left
    simp only [Prod.mk.injEq] at q
    obtain ⟨rfl, rfl⟩ := q
    rw [evalSet_chr, beq_iff_eq] at hx
    subst hx
    simp only at e ⊢
    exact Adv.between (w := t!"p") ⟨by simp [e], rfl⟩
  · right
    simp only [Prod.mk.injEq] at q q'
    obtain ⟨rfl, rfl⟩ := q
    obtain ⟨rfl, rfl⟩ := q'
    rw [evalSet_chr, beq_iff_eq] at hx
    subst hx
    simp only at e e' ⊢
    exact ⟨y, Adv.between (w := ['h', y]) ⟨by simp [e, e'], by simp⟩⟩

/-- Without closing tag of a paragraph or heading there is no line break to be made. -/
theorem TAG_P_noclose {U : Uni} {t : Str} (h1 : containsStr t!"</p>" t = false) (h2 : containsStr t!"</h" t = false) (pre : Str) :
    TAG_P_RE.search U pre t = none := by
  rw [Re.search_none_iff]
  rintro w ⟨cp, cr⟩ ⟨hc, -⟩
  simp only at hc
  rw [Re.matchAt_none, TAG_P_all, List.flatMap_eq_nil_iff]
  intro p hp
  rw [List.flatMap_eq_nil_iff]
  intro q hq
  obtain ⟨tag, ht, hT⟩ := pOpen_tag hp
  obtain ⟨w1, hw1⟩ := Re.all_adv U _ _ _ _ hp
  obtain ⟨w2, -, hw2, hq2⟩ := mem_star_set.1 hq
  refine pClose_miss U (tag := tag) (by simpa [alLookup, hq2] using ht) ?_
  intro z hz
  have e : t = (w ++ w1 ++ w2) ++ (closeTag tag ++ z) := by
    have h3 : cr = w1 ++ p.1.rest := hw1.1
    have h4 : p.1.rest = w2 ++ q.1.rest := hw2.1
    rw [hc, h3, h4, hz]; simp
  rcases hT with rfl | ⟨d, rfl⟩
  · rw [show (t!"</p>" : Str) = closeTag t!"p" from rfl, containsStr_iff.2 ⟨_, _, e⟩] at h1; cases h1
  · rw [containsStr_iff.2 ⟨w ++ w1 ++ w2, d :: '>' :: z, by rw [e]; simp [closeTag]⟩] at h2; cases h2

theorem doPBr_noclose {C : Ctx} {t : Str} (h1 : containsStr t!"</p>" t = false) (h2 : containsStr t!"</h" t = false) :
    doPBr C t = t := Re.replaceAll_none _ (TAG_P_noclose h1 h2 _)

theorem NEWLINE_nonnull : NEWLINE_RE.nonnull = true := by decide
theorem BR_TAG_nonnull : BR_TAG_RE.nonnull = true := by decide

theorem NEWLINE_none {U : Uni} {x : Char} {pre t : Str} (h : x ≠ '\n') : NEWLINE_RE.matchAt U ⟨pre, x :: t⟩ = none := by
  rw [Re.matchAt_none, show NEWLINE_RE = .seq (.set false [.chr '\n'])
    (.look true (.set false [.cls .space, .chr '|'])) from rfl, all_seq_set_cons, evalSet_chr]
  simp [h]

theorem NEWLINE_hit {U : Uni} {x : Char} {pre t : Str} (h : isWs x = false) (h' : x ≠ '|') :
    NEWLINE_RE.matchAt U ⟨pre, '\n' :: x :: t⟩ = some (⟨'\n' :: pre, x :: t⟩, []) := by
  rw [Re.matchAt_eq, show NEWLINE_RE = .seq (.set false [.chr '\n'])
    (.look true (.set false [.cls .space, .chr '|'])) from rfl, all_seq_set_cons, evalSet_chr]
  have : evalSet U false [.cls .space, .chr '|'] x = false := by
    have hx : x.toNat ≠ 124 := fun e => h' (char_toNat_inj e)
    simp [evalSet, Item.eval, UC.eval, h, hx]
  simp [Re.all, this]

theorem plain_nows {c : Char} (h : Spec.ordinaryChar c = true) (h' : c ≠ ' ') : isWs c = false ∧ c ≠ '|' := by
  rw [← plainA_iff] at h
  rcases h with h | ⟨-, h1, h2, -⟩
  · have : ∀ c ∈ plainA.ascii, c ≠ ' ' → isWs c = false ∧ c ≠ '|' := by decide
    exact this c h h'
  · refine ⟨h2, ?_⟩
    rintro rfl; revert h1; decide

theorem line_start {up : Char → Bool} {l : Str} (h : Spec.Line up l) :
    ∃ c u, l = c :: u ∧ isWs c = false ∧ c ≠ '|' := by
  obtain ⟨c, u, rfl, hc⟩ := h.start
  exact ⟨c, u, rfl, plain_nows (h.chars c (by simp)) hc⟩

theorem newline_skips {U : Uni} {w rest : Str} (h : '\n' ∉ w) : ∀ pre, Skips U NEWLINE_RE pre w rest := by
  induction w with
  | nil => intro pre; exact Skips.nil
  | cons x w ih =>
    intro pre
    simp at h
    exact Skips.cons (NEWLINE_none (fun e => h.1 e.symm)) (ih h.2 _)

theorem newline_scan {U : Uni} {up : Char → Bool} {g : Str → Caps → Str} {br : Str} (hg : ∀ w s, g w s = br) :
    ∀ {ls : List Str}, (∀ l ∈ ls, Spec.Line up l) → ∀ pre, Scan U NEWLINE_RE g pre (Spec.join t!"\n" ls) (Spec.join br ls)
  | [], _, pre => .nil
  | [l], h, pre => by
    have := newline_skips (U := U) (rest := []) (words_no_nl (h l (by simp)).toWords) pre
    simpa [Spec.join] using Scan.of_skips this (Scan.nil (g := g))
  | l :: m :: ls, h, pre => by
    have ih := newline_scan (U := U) (up := up) hg (ls := m :: ls) (fun x hx => h x (List.mem_cons_of_mem _ hx))
      ('\n' :: (l.reverse ++ pre))
    rw [join_cons (sep := t!"\n") (l := l) (ls := m :: ls) (by simp),
      join_cons (sep := br) (l := l) (ls := m :: ls) (by simp), List.append_assoc, List.append_assoc]
    refine Scan.of_skips (newline_skips (words_no_nl (h l (by simp)).toWords) pre) ?_
    obtain ⟨c, u, rfl, h1, h2⟩ := line_start (h m (by simp))
    obtain ⟨v, hv⟩ : ∃ v, Spec.join t!"\n" ((c :: u) :: ls) = c :: v := by
      cases ls with
      | nil => exact ⟨u, rfl⟩
      | cons n ls => exact ⟨_, rfl⟩
    rw [hv] at ih ⊢
    have := Scan.hit (g := g) (w := t!"\n") (NEWLINE_hit (U := U) (pre := l.reverse ++ pre) (t := v) h1 h2) (by simp) ih
    rw [hg] at this
    exact this

theorem brNl_need : BR_NL_RE.need linesA = true := by decide

theorem brTag_cases (c : Cfg) : c.brTag = t!"<br>" ∨ c.brTag = t!"<br />" := by
  unfold Cfg.brTag; split <;> simp

theorem brTag_templ (c : Cfg) (w : Str) (s : Caps) : templ c.brTag w s = c.brTag :=
  templ_lit (by rcases brTag_cases c with h | h <;> rw [h] <;> decide) w s

/-- Newlines between ordinary lines become break tags. -/
theorem brText_lines {C : Ctx} (hU : UniOk C.U) {up : Char → Bool} {ls : List Str} (h : ∀ l ∈ ls, Spec.Line up l) :
    brText C (Spec.join t!"\n" ls) = Spec.join C.cfg.brTag ls := by
  unfold brText
  rw [Re.replaceTempl_none _ (Re.need_search hU linesA_wf brNl_need (lines_over h) _)]
  exact Re.replaceTempl_eq NEWLINE_nonnull (newline_scan (fun w s => brTag_templ _ w s) h _)

/-! ## Texts without a given word -/

/-- The word `n` does not start inside `w`, whatever follows. -/
def Free (n w : Str) : Prop := ∀ u v, w = u ++ v → v ≠ [] → ¬ (∃ x, v = n ++ x) ∧ ¬ (∃ x, n = v ++ x)

/-- The test. -/
def free (n : Str) : Str → Bool
  | [] => true
  | c :: t => !n.isPrefixOf (c :: t) && !(c :: t).isPrefixOf n && free n t

theorem Free.of {n : Str} : ∀ {w : Str}, free n w = true → Free n w
  | [], _, u, v, e, hv => by simp at e; exact absurd e.2 hv
  | c :: t, h, u, v, e, hv => by
    simp only [free, Bool.and_eq_true, Bool.not_eq_true'] at h
    cases u with
    | nil =>
      simp at e; subst e
      refine ⟨?_, ?_⟩
      · intro hx; rw [isPrefixOf_iff.2 hx] at h; simp at h
      · intro hx; rw [isPrefixOf_iff.2 hx] at h; simp at h
    | cons d u =>
      simp at e
      exact Free.of h.2 u v e.2 hv

theorem Free.append {n a b : Str} (ha : Free n a) (hb : Free n b) : Free n (a ++ b) := by
  intro u v e hv
  rw [List.append_eq_append_iff] at e
  rcases e with ⟨x, rfl, e⟩ | ⟨x, rfl, rfl⟩
  · exact hb x v e hv
  · cases x with
    | nil => exact hb [] b rfl hv
    | cons y x =>
      have := ha u (y :: x) rfl (by simp)
      refine ⟨?_, ?_⟩
      · rintro ⟨z, hz⟩
        rw [List.append_eq_append_iff] at hz
        rcases hz with ⟨w, h1, -⟩ | ⟨w, h1, -⟩
        · exact this.2 ⟨w, h1⟩
        · exact this.1 ⟨w, h1⟩
      · rintro ⟨z, hz⟩
        exact this.2 ⟨b ++ z, by rw [hz]; simp⟩

theorem Free.nil {n : Str} : Free n [] := Free.of rfl

theorem Free.of_head {n w : Str} {c : Char} (hn : n.head? = some c) (hw : c ∉ w) : Free n w := by
  intro u v e hv
  cases n with
  | nil => simp at hn
  | cons d n =>
    simp at hn; subst hn
    cases v with
    | nil => exact absurd rfl hv
    | cons y v =>
      have : y ≠ d := by rintro rfl; exact hw (by rw [e]; simp)
      refine ⟨?_, ?_⟩
      · rintro ⟨x, hx⟩; simp at hx; exact this hx.1
      · rintro ⟨x, hx⟩; simp at hx; exact this hx.1.symm

theorem Free.not_infix {n w : Str} (h : Free n w) (hn : n ≠ []) (a b : Str) : w ≠ a ++ (n ++ b) := by
  intro e
  exact (h a (n ++ b) e (by simp [hn])).1 ⟨b, rfl⟩

/-- At no position inside `w` does the rest start with `n`. -/
theorem Free.at {n w u v r : Str} {y : Char} (h : Free n w) (e : w = u ++ y :: v) (x : Str) : y :: v ++ r ≠ n ++ x := by
  intro hx
  have := h u (y :: v) e (by simp)
  rw [List.append_eq_append_iff] at hx
  rcases hx with ⟨z, h1, -⟩ | ⟨z, h1, -⟩
  · exact this.2 ⟨z, h1⟩
  · exact this.1 ⟨z, h1⟩

/-! ## Break tags -/

/-- No break tag starts in the text. -/
def BrFree (w : Str) : Prop := Free t!"<br" w ∧ Free t!"<bR" w ∧ Free t!"<Br" w ∧ Free t!"<BR" w

theorem BrFree.append {a b : Str} (ha : BrFree a) (hb : BrFree b) : BrFree (a ++ b) :=
  ⟨ha.1.append hb.1, ha.2.1.append hb.2.1, ha.2.2.1.append hb.2.2.1, ha.2.2.2.append hb.2.2.2⟩

theorem BrFree.of_lt {w : Str} (h : '<' ∉ w) : BrFree w :=
  ⟨.of_head rfl h, .of_head rfl h, .of_head rfl h, .of_head rfl h⟩

theorem BR_TAG_none {U : Uni} {pre rest : Str}
    (h : ∀ x, rest ≠ t!"<br" ++ x ∧ rest ≠ t!"<bR" ++ x ∧ rest ≠ t!"<Br" ++ x ∧ rest ≠ t!"<BR" ++ x) :
    BR_TAG_RE.matchAt U ⟨pre, rest⟩ = none := by
  rw [Re.matchAt_none]
  cases hl : BR_TAG_RE.all U ⟨pre, rest⟩ [] with
  | nil => rfl
  | cons p l =>
    exfalso
    obtain ⟨w, hw, lw⟩ := Re.all_lang BR_TAG_RE ⟨pre, rest⟩ [] p (by rw [hl]; simp)
    change (Re.seq (.set false [.chr '<']) (.seq (.set false [.chr 'b', .chr 'B']) (.seq (.set false [.chr 'r', .chr 'R']) _))).lang U w at lw
    rw [lang_seq] at lw
    obtain ⟨_, _, rfl, h1, _, _, rfl, ⟨b, rfl, hb⟩, _, v, rfl, ⟨r, rfl, hr⟩, -⟩ := lw
    rw [lang_chr] at h1
    subst h1
    have e := hw.1
    simp only at e
    have hb' : b = 'b' ∨ b = 'B' := by simpa [evalSet, Item.eval_chr] using hb
    have hr' : r = 'r' ∨ r = 'R' := by simpa [evalSet, Item.eval_chr] using hr
    have := h (v ++ p.1.rest)
    rcases hb' with rfl | rfl <;> rcases hr' with rfl | rfl <;> simp [e] at this

theorem brFree_skips {U : Uni} {w rest : Str} (h : BrFree w) (pre : Str) : Skips U BR_TAG_RE pre w rest := by
  intro u x v e
  apply BR_TAG_none
  intro y
  exact ⟨h.1.at e y, h.2.1.at e y, h.2.2.1.at e y, h.2.2.2.at e y⟩

theorem BR_TAG_hit {U : Uni} {br : Str} (h : br = t!"<br>" ∨ br = t!"<br />") (pre rest : Str) :
    BR_TAG_RE.matchAt U ⟨pre, br ++ rest⟩ = some (⟨br.reverse ++ pre, rest⟩, []) := by
  rcases h with rfl | rfl <;> kernel_rfl

/-- Texts with break tags `br`, and the texts with a newline after each of them. -/
inductive Broken (br : Str) : Str → Str → Prop
  | nil : Broken br [] []
  | text {w t o : Str} (hw : BrFree w) (h : Broken br t o) : Broken br (w ++ t) (w ++ o)
  | br {t o : Str} (ht : t.head? ≠ some '\n') (h : Broken br t o) : Broken br (br ++ t) (br ++ '\n' :: o)

theorem Broken.single {br w : Str} (h : BrFree w) : Broken br w w := by
  have := Broken.text h (Broken.nil (br := br))
  simpa using this

/-- Break tags are already as they should be. -/
theorem Broken.replace {C : Ctx} {t o : Str} (h : Broken C.cfg.brTag t o) :
    BR_TAG_RE.replaceTempl C.U C.cfg.brTag t = t := by
  refine Re.replaceTempl_eq BR_TAG_nonnull ?_
  suffices ∀ pre, Scan C.U BR_TAG_RE (templ C.cfg.brTag) pre t t from this []
  induction h with
  | nil => intro pre; exact .nil
  | text hw h ih => intro pre; exact Scan.of_skips (brFree_skips hw pre) (ih _)
  | br ht h ih =>
    intro pre
    have := Scan.hit (g := templ C.cfg.brTag) (BR_TAG_hit (U := C.U) (brTag_cases C.cfg) pre _)
      (by rcases brTag_cases C.cfg with h | h <;> rw [h] <;> simp) (ih _)
    rwa [brTag_templ] at this

theorem tidyBreaks_free {br : Str} : ∀ {w t : Str}, Free t!"<br" w → Spec.tidyBreaks br (w ++ t) = w ++ Spec.tidyBreaks br t
  | [], t, _ => rfl
  | c :: w, t, h => by
    have h1 := fun x => h.at (r := t) (u := []) (y := c) (v := w) rfl x
    have ih := tidyBreaks_free (br := br) (w := w) (t := t) (fun u v e hv => h (c :: u) v (by simp [e]) hv)
    rw [List.cons_append, Spec.tidyBreaks.eq_def]
    split
    · rename_i e; exact absurd (by simpa using e) (h1 ('>' :: _))
    · rename_i e; exact absurd (by simpa using e) (h1 (' ' :: '/' :: '>' :: _))
    · rename_i e; simp at e; rw [← e.1, ← e.2, ih]; rfl
    · rename_i e; simp at e

theorem tidyBreaks_br {br t : Str} (hb : br = t!"<br>" ∨ br = t!"<br />") (h : t.head? ≠ some '\n') :
    Spec.tidyBreaks br (br ++ t) = br ++ '\n' :: Spec.tidyBreaks br t := by
  rcases hb with rfl | rfl
  · change Spec.tidyBreaks _ ('<' :: 'b' :: 'r' :: '>' :: t) = _
    rw [Spec.tidyBreaks, if_neg h]; simp
  · change Spec.tidyBreaks _ ('<' :: 'b' :: 'r' :: ' ' :: '/' :: '>' :: t) = _
    rw [Spec.tidyBreaks, if_neg h]; simp

theorem Broken.tidy {br t o : Str} (hb : br = t!"<br>" ∨ br = t!"<br />") (h : Broken br t o) : Spec.tidyBreaks br t = o := by
  induction h with
  | nil => rfl
  | text hw h ih => rw [tidyBreaks_free hw.1, ih]
  | br ht h ih => rw [tidyBreaks_br hb ht, ih]

end Rustextile
