import Verif.ImageRe
import Verif.StyledBlock
import Verif.InlineBlock

/-!
# Marked parts with attributes

The patterns of inline markup on a text whose marked parts may have attributes after the
first marker, as in `*(name#id)text*`.
-/

namespace Rustextile

open Prog

theorem spanCls_groups : spanCls = groupsRe := by kernel_rfl

/-- Attributes that can be given to a marked part: a class and an id. -/
def Simple (a : Spec.Atts) : Prop :=
  a.align = none ∧ a.left = 0 ∧ a.right = 0 ∧ a.groups.length ≤ 1 ∧ ∀ g ∈ a.groups, g.Ok ∧ g.kind = .classes ∧ ∀ c ∈ g.source, c ∈ asciiAlnum ∨ c ∈ t!"()# "

theorem Simple.source {a : Spec.Atts} (h : Simple a) : a.source = a.groups.flatMap Spec.Group.source := by
  obtain ⟨h1, h2, h3, -⟩ := h
  simp [Spec.Atts.source, Spec.Atts.marks, h1, h2, h3]

theorem Simple.groups {a : Spec.Atts} (h : Simple a) : (∀ g ∈ a.groups, g.Ok) ∧ (a.groups.map Spec.Group.kind).Nodup := by
  obtain ⟨-, -, -, h1, h2⟩ := h
  refine ⟨fun g hg => (h2 g hg).1, ?_⟩
  match hg : a.groups, h1 with
  | [], _ => simp
  | [g], _ => simp

theorem Simple.chars {a : Spec.Atts} (h : Simple a) : ∀ c ∈ a.source, c ∈ asciiAlnum ∨ c ∈ t!"()# " := by
  rw [h.source]
  intro c hc
  obtain ⟨g, hg, hc⟩ := List.mem_flatMap.1 hc
  exact (h.2.2.2.2 g hg).2.2 c hc

theorem Simple.safe {a : Spec.Atts} (h : Simple a) : ∀ c ∈ a.source, Safe c := by
  intro c hc
  rcases h.chars c hc with h | h
  · exact (by decide +kernel : ∀ c ∈ asciiAlnum, Safe c) c h
  · exact (by decide : ∀ c ∈ t!"()# ", Safe c) c h

/-- A marked text with attributes matches the pattern of its marker. -/
theorem spanAtt_match {U : Uni} {m t z pre : Str} {a : Spec.Atts} (hA : Simple a) (hm : m ∈ markers) (ht : SpanText m t) (hz : AtGap z)
    (hp : pre = [] ∨ ∃ c p, pre = c :: p ∧ isWs c = true) :
    ∃ c e, c ++ e = t ∧ (spanShape m).matchAt U ⟨pre, m ++ (a.source ++ (t ++ (m ++ z)))⟩ =
      some (⟨(m ++ (a.source ++ (t ++ m))).reverse ++ pre, z⟩, [(7, []), (6, e), (5, c), (3, a.source), (2, m), (1, [])]) := by
  obtain ⟨a0, u, hat, ha1, ha2⟩ := ht.head
  have ham : a0 ∉ m := ht.nom a0 (by rw [hat]; simp)
  simp only [List.mem_cons, List.not_mem_nil, or_false, not_or] at ha2
  obtain ⟨hc1, hc2, hc3, hc4⟩ := ha2
  have hnm : ∀ m' ∈ markers, ∃ m0 m1, m' = m0 :: m1 ∧ m0 ∉ t!"{[" := by
    intro m' h
    simp only [markers, List.mem_cons, List.not_mem_nil, or_false] at h
    rcases h with rfl | rfl | rfl | rfl | rfl | rfl | rfl | rfl | rfl | rfl <;> exact ⟨_, _, rfl, by decide⟩
  obtain ⟨m0, m1, hm01, hm0⟩ := hnm m hm
  have hlook0 : ∀ {x : Str} {y : Char}, y ∉ m → ∀ pre s, (Re.look true (Re.lit m)).all U ⟨pre, y :: x⟩ s = [(⟨pre, y :: x⟩, s)] := by
    intro x y hy pre s
    have : (Re.lit m).all U ⟨pre, y :: x⟩ s = [] := by
      rw [Re.lit_all, if_neg]
      rw [hm01]
      intro h
      simp only [List.isPrefixOf, Bool.and_eq_true, beq_iff_eq] at h
      exact hy (by rw [hm01, ← h.1]; simp)
    simp only [Re.all, this]
    rfl
  have hlook : ∀ pre s, (Re.look true (Re.lit m)).all U ⟨pre, t ++ (m ++ z)⟩ s = [(⟨pre, t ++ (m ++ z)⟩, s)] := by
    rw [hat]; exact hlook0 ham
  have hlookA : ∀ pre s, (Re.look true (Re.lit m)).all U ⟨pre, a.source ++ (t ++ (m ++ z))⟩ s = [(⟨pre, a.source ++ (t ++ (m ++ z))⟩, s)] := by
    cases hs : a.source with
    | nil => exact hlook
    | cons y ys => exact hlook0 ((hA.safe y (by rw [hs]; simp)).marker hm)
  obtain ⟨L1, L2, h1, h2, h3⟩ := spanText_split (U := U) (z := z) (pre := a.source.reverse ++ (m.reverse ++ pre)) (s := [(3, a.source), (2, m), (1, [])]) hm ht
  obtain ⟨l3, hcls0⟩ := groups_heads (U := U) hA.groups.1 hA.groups.2 (pre := m.reverse ++ pre) (rest := t ++ (m ++ z)) (s := [(2, m), (1, [])]) (by
    rw [hat]; intro c hc; simp at hc; subst hc; simp [hc2, hc3, hc4])
  rw [← hA.source, ← spanCls_groups] at hcls0
  have hcls : (Re.grp 3 spanCls).all U ⟨m.reverse ++ pre, a.source ++ (t ++ (m ++ z))⟩ [(2, m), (1, [])] =
      (⟨a.source.reverse ++ (m.reverse ++ pre), t ++ (m ++ z)⟩, [(3, a.source), (2, m), (1, [])]) ::
        l3.map (fun p => (p.1, (3, between ⟨m.reverse ++ pre, a.source ++ (t ++ (m ++ z))⟩ p.1) :: p.2)) := by
    rw [Re.all, hcls0]
    simp [between]
  have hcite : ∀ pre s, (spanCiteRe m).all U ⟨pre, t ++ (m ++ z)⟩ s = [(⟨pre, t ++ (m ++ z)⟩, s)] := by
    intro pre s
    rw [hat]
    simp only [List.cons_append]
    rw [spanCiteRe, all_alt, all_seq_set_cons, evalSet_chr, if_neg (by simpa using hc1)]
    rfl
  have hlit : ∀ s, (Re.grp 2 (Re.lit m)).all U ⟨pre, m ++ (a.source ++ (t ++ (m ++ z)))⟩ s =
      [(⟨m.reverse ++ pre, a.source ++ (t ++ (m ++ z))⟩, (2, m) :: s)] := by
    intro s
    rw [Re.all, Re.lit_all, if_pos (by simp)]
    simp [between]
  have hpre : spanPreRe.all U ⟨pre, m ++ (a.source ++ (t ++ (m ++ z)))⟩ [] = [(⟨pre, m ++ (a.source ++ (t ++ (m ++ z)))⟩, [(1, [])])] := by
    rw [hm01]
    exact spanPre_all hm0 hp
  obtain ⟨B, hall⟩ : ∃ B, (spanShape m).all U ⟨pre, m ++ (a.source ++ (t ++ (m ++ z)))⟩ [] =
      (L1 ++ L2).flatMap (fun q => (spanEndRe m).all U q.1
        ((5, between ⟨a.source.reverse ++ (m.reverse ++ pre), t ++ (m ++ z)⟩ q.1) :: q.2)) ++ B := by
    rw [spanShape, all_seq, hpre]
    simp only [List.flatMap_cons, List.flatMap_nil, List.append_nil]
    rw [all_seq, hlit]
    simp only [List.flatMap_cons, List.flatMap_nil, List.append_nil]
    rw [all_seq, hlookA]
    simp only [List.flatMap_cons, List.flatMap_nil, List.append_nil]
    rw [all_seq, hcls]
    rw [List.flatMap_cons]
    refine ⟨_, congrArg (· ++ _) ?_⟩
    simp only
    rw [all_seq, hlook]
    simp only [List.flatMap_cons, List.flatMap_nil, List.append_nil]
    rw [all_seq, hcite]
    simp only [List.flatMap_cons, List.flatMap_nil, List.append_nil]
    rw [all_seq, Re.all, h1, List.flatMap_map]
  obtain ⟨b, l, hb, c, e, hce, hb'⟩ := flatMap_head (L1 := L1) (L2 := L2)
    (k := fun q => (spanEndRe m).all U q.1 ((5, between ⟨a.source.reverse ++ (m.reverse ++ pre), t ++ (m ++ z)⟩ q.1) :: q.2))
    (P := fun b => ∃ c e, c ++ e = t ∧ b = (⟨(m ++ (a.source ++ (t ++ m))).reverse ++ pre, z⟩,
      [(7, []), (6, e), (5, c), (3, a.source), (2, m), (1, [])]))
    (by
      intro q hq b hb
      obtain ⟨v, r, e1, rfl⟩ := h2 q hq
      have hbet : between ⟨a.source.reverse ++ (m.reverse ++ pre), t ++ (m ++ z)⟩ ⟨v.reverse ++ (a.source.reverse ++ (m.reverse ++ pre)), r ++ (m ++ z)⟩ = v := by
        rw [e1]; simp [between]
      simp only [hbet] at hb
      have := spanEnd_mem hm (fun c hc => ht.nom c (by rw [e1]; simp [hc])) hz hb
      refine ⟨v, r, e1.symm, ?_⟩
      rw [this, e1]
      simp)
    ⟨_, h3, spanEnd_ne hz⟩
  refine ⟨c, e, hce, ?_⟩
  rw [Re.matchAt_eq, hall, hb, hb']
  rfl

/-! ## Texts with such parts -/

/-- A marked part with attributes, and the text after it. -/
abbrev Dr := Spec.Atts × Itm × Str

def Dr.str (uid : Str) (p : Dr) : Str :=
  match p.2.1 with
  | .raw m t => m ++ (p.1.source ++ (t ++ m))
  | .tok n m t => (Itm.tok n m t).str uid

def Dr.skel (p : Dr) : Spec.Atts × Str × Str × Str := (p.1, Rustextile.skel p.2)

/-- The text made of marked parts and what follows each of them, and the end `z`. -/
def drMix (uid z : Str) (xs : List Dr) : Str := xs.flatMap (fun p => Dr.str uid p ++ p.2.2) ++ z

theorem drMix_cons (uid z : Str) (p : Dr) (xs : List Dr) : drMix uid z (p :: xs) = Dr.str uid p ++ (p.2.2 ++ drMix uid z xs) := by
  simp [drMix]

theorem drMix_nil (uid z : Str) : drMix uid z [] = z := rfl

theorem drMix_end (uid z : Str) (xs : List Dr) : drMix uid z xs = drMix uid [] xs ++ z := by simp [drMix]

/-- Nothing is left of the attributes in the text with placeholders. -/
theorem drMix_toks (uid z : Str) : ∀ {xs : List Dr}, (∀ p ∈ xs, p.2.1.isRaw = false) → drMix uid z xs = mix uid z (xs.map Prod.snd)
  | [], _ => rfl
  | (a, i, g) :: xs, h => by
    have ih := drMix_toks uid z (xs := xs) (fun p hp => h p (by simp [hp]))
    rw [drMix_cons, ih, List.map_cons, mix_cons]
    cases i with
    | raw m t => have := h _ List.mem_cons_self; cases this
    | tok n m t => rfl

theorem parseAttrs_simple {C : Ctx} (hU : UniOk C.U) {a : Spec.Atts} (h : Simple a) :
    parseAttrs C a.source none = pure (attsOf C.cfg.restricted a) := by
  exact parseAttrs_atts hU h.groups

theorem joinAttrs_atts (r : Bool) (a : Spec.Atts) : joinAttrs (attsOf r a).html = (attsOf r a).toStr := by
  have key : ∀ p ∈ (attsOf r a).html, p.1.all isValidAttrChar = true := by
    intro p hp
    rw [attsOf, toStr_four] at hp
    have : p.1 ∈ [t!"class", t!"id", t!"lang", t!"style"] := by
      simp only [List.mem_append, List.mem_map] at hp
      rcases hp with ⟨v, -, rfl⟩ | ⟨v, -, rfl⟩ | ⟨v, -, rfl⟩ | ⟨v, -, rfl⟩ <;> simp
    exact (by decide : ∀ k ∈ [t!"class", t!"id", t!"lang", t!"style"], k.all isValidAttrChar = true) _ this
  rw [joinAttrs, List.filter_eq_self.2 key]
  rfl

theorem runs_fSpanAtt {C : Ctx} (hU : UniOk C.U) {n : Nat} {m c e gap w : Str} {a : Spec.Atts} {σ : PState} (hA : Simple a) (hm : m ∈ markers) (hc : ∀ x ∈ c, Safe x) :
    Runs C (fSpan C (spanN C (n + 1)) ⟨gap, w, [(7, []), (6, e), (5, c), (3, a.source), (2, m), (1, [])]⟩)
      ((Itm.tok (σ.refIndex + 1) m (c ++ e)).str C.cfg.uid) σ
      (σ.tagged (openTagA (tagName m) (a.html C.cfg.restricted)) (closeTag (tagName m))) := by
  unfold fSpan
  simp only [Mat.grp, Mat.get?, alLookup]
  simp only [Nat.reduceEqDiff, if_false, if_true, Option.getD_some, spanTag_marker hm, parseAttrs_simple hU hA, pure_bind]
  refine (runs_ofR _ σ).bind ?_
  refine (runs_spanN_none n (safe_none hc) σ).bind ?_
  have e1 : t!"<" ++ tagName m ++ joinAttrs (attsOf C.cfg.restricted a).html ++ t!">" = openTagA (tagName m) (a.html C.cfg.restricted) := by
    rw [← atts_text hA.groups, joinAttrs_atts]
    simp [openTagA]
  have e2 : t!"</" ++ tagName m ++ t!">" = closeTag (tagName m) := rfl
  rw [e1, e2]
  refine (runs_storeTags _ _ σ).bind ?_
  have e3 : (specialOptions [] []).1 ++ ospan C.cfg.uid (σ.refIndex + 1) ++ c ++ e ++ cspan C.cfg.uid (σ.refIndex + 2) ++ (specialOptions [] []).2 =
      (Itm.tok (σ.refIndex + 1) m (c ++ e)).str C.cfg.uid := by
    simp [specialOptions, Itm.str]
  rw [← e3]
  exact Runs.pure _ _

/-- The tags of a marked part have been stored. -/
def KnownA (r : Bool) (σ : PState) (p : Dr) : Prop :=
  match p.2.1 with
  | .raw _ _ => True
  | .tok n m _ => n + 1 ≤ σ.refIndex ∧ alLookup n σ.refCache = some (openTagA (tagName m) (p.1.html r)) ∧
      alLookup (n + 1) σ.refCache = some (closeTag (tagName m))

theorem KnownA.mono {r : Bool} {σ σ' : PState} {p : Dr} (h : KnownA r σ p) (he : Ext σ σ') : KnownA r σ' p := by
  obtain ⟨k, d, rfl, h1, h2⟩ := he
  obtain ⟨a, i, g⟩ := p
  cases i with
  | raw m t => trivial
  | tok n m t =>
    obtain ⟨a, b, c⟩ := h
    exact ⟨Nat.le_trans a h1, by rw [← b]; exact h2 _ (by omega), by rw [← c]; exact h2 _ a⟩

theorem KnownA.tagged (r : Bool) (a : Spec.Atts) (m t g : Str) (σ : PState) :
    KnownA r (σ.tagged (openTagA (tagName m) (a.html r)) (closeTag (tagName m))) (a, .tok (σ.refIndex + 1) m t, g) := by
  refine ⟨Nat.le_refl _, ?_, ?_⟩
  · simp only [PState.tagged]
    rw [alLookup_imInsert, if_neg (by omega), alLookup_imInsert, if_pos rfl]
  · simp only [PState.tagged]
    rw [alLookup_imInsert, if_pos rfl]

structure DrOk (z : Str) (xs : List Dr) : Prop where
  mix : MixOk z (xs.map Prod.snd)
  atts : ∀ p ∈ xs, Simple p.1

theorem DrOk.tail {z : Str} {p : Dr} {xs : List Dr} (h : DrOk z (p :: xs)) : DrOk z xs :=
  ⟨h.mix.tail, fun q hq => h.atts q (List.mem_cons_of_mem _ hq)⟩

theorem spaced_afterA {p : Dr} {xs : List Dr} {z : Str} (h : Spaced z ((p :: xs).map Prod.snd)) (uid : Str) :
    AtGap (p.2.2 ++ drMix uid z xs) := by
  cases xs with
  | nil => exact h
  | cons q xs => exact h.1.2.append h.1.1 _

def PassToA (C : Ctx) (z m : Str) (ms : List Str) (n : Nat) (pre : Str) (σ : PState) (xs : List Dr) : Prop :=
  ∃ xs' σ', ScanP C (spanShape m) (fSpan C (spanN C (n + 1))) pre (drMix C.cfg.uid z xs) σ (drMix C.cfg.uid z xs') σ' ∧
    xs'.map Dr.skel = xs.map Dr.skel ∧ (∀ p ∈ xs', p.2.1.isRaw = true → p.2.1.mark ∈ ms) ∧ (∀ p ∈ xs', KnownA C.cfg.restricted σ' p) ∧
    Ext σ σ' ∧ σ'.refIndex + 2 * raws (xs'.map Prod.snd) = σ.refIndex + 2 * raws (xs.map Prod.snd)

/-- The pattern of one marker. -/
theorem passA {C : Ctx} (hU : UniOk C.U) (hu : ∀ c ∈ C.cfg.uid, Safe c) {z : Str} (hzs : ∀ c ∈ z, Safe c) {m : Str} {ms : List Str} (hm : m ∈ markers)
    (hms : ∀ m' ∈ ms, apart m m') (n : Nat) : ∀ (xs : List Dr) (pre : Str) (σ : PState), DrOk z xs →
    (∀ p ∈ xs, p.2.1.isRaw = true → p.2.1.mark ∈ m :: ms) → (∀ p ∈ xs, KnownA C.cfg.restricted σ p) → (xs ≠ [] → AfterGap pre) →
    PassToA C z m ms n pre σ xs
  | [], pre, σ, _, _, _, _ => by
    refine ⟨[], σ, ?_, rfl, by simp, by simp, Ext.refl σ, rfl⟩
    rw [drMix_nil]
    have := ScanP.of_skips (C := C) (f := fSpan C (spanN C (n + 1))) (σ := σ) (safe_skips hm hzs pre []) .nil
    simpa using this
  | (a, i, g) :: xs, pre, σ, hok, hr, hk, hp => by
    have hA := hok.atts (a, i, g) (by simp)
    have hi := hok.mix.items (i, g) (by simp)
    have hg := hok.mix.gaps (i, g) (by simp)
    have hz := spaced_afterA hok.mix.spaced C.cfg.uid
    simp only at hA hi hg hz
    have hp' := hp (by simp)
    have hpre : ∀ p : Str, xs ≠ [] → AfterGap (g.reverse ++ p) := by
      intro p hx
      cases xs with
      | nil => exact absurd rfl hx
      | cons q xs => exact spaced_before hok.mix.spaced p
    -- a marked part that stays
    have stay : Skips C.U (spanShape m) pre (Dr.str C.cfg.uid (a, i, g)) (g ++ drMix C.cfg.uid z xs) →
        (i.isRaw = true → i.mark ∈ ms) → PassToA C z m ms n pre σ ((a, i, g) :: xs) := by
      intro hsk him
      obtain ⟨xs', σ', h1, h2, h3, h4, h5, h6⟩ := passA hU hu hzs hm hms n xs (g.reverse ++ ((Dr.str C.cfg.uid (a, i, g)).reverse ++ pre)) σ hok.tail
        (fun p hp => hr p (List.mem_cons_of_mem _ hp)) (fun p hp => hk p (List.mem_cons_of_mem _ hp)) (hpre _)
      refine ⟨(a, i, g) :: xs', σ', ?_, ?_, ?_, ?_, h5, ?_⟩
      · rw [drMix_cons, drMix_cons]
        exact ScanP.of_skips hsk (ScanP.of_skips (safe_skips hm hg _ _) h1)
      · simp [h2]
      · intro p hp
        rcases List.mem_cons.1 hp with rfl | hp
        · exact him
        · exact h3 p hp
      · intro p hp
        rcases List.mem_cons.1 hp with rfl | hp
        · exact (hk _ (by simp)).mono h5
        · exact h4 p hp
      · simp only [raws, List.map_cons, List.countP_cons] at h6 ⊢
        split <;> omega
    cases i with
    | tok k m' t => exact stay (safe_skips hm (tok_safe (m := m') hu hi.safe) _ _) (by simp [Itm.isRaw])
    | raw m' t =>
      by_cases hmm : m' = m
      · subst hmm
        obtain ⟨c, e, hce, hmatch⟩ := spanAtt_match (U := C.U) (pre := pre) hA hi.mark hi.text hz hp'
        change c ++ e = t at hce
        obtain ⟨xs', σ', h1, h2, h3, h4, h5, h6⟩ := passA hU hu hzs hm hms n xs (g.reverse ++ ((m' ++ (a.source ++ (t ++ m'))).reverse ++ pre))
          (σ.tagged (openTagA (tagName m') (a.html C.cfg.restricted)) (closeTag (tagName m'))) hok.tail
          (fun p hp => hr p (List.mem_cons_of_mem _ hp))
          (fun p hp => (hk p (List.mem_cons_of_mem _ hp)).mono (Ext.tagged _ _ σ)) (hpre _)
        refine ⟨(a, .tok (σ.refIndex + 1) m' t, g) :: xs', σ', ?_, ?_, ?_, ?_, (Ext.tagged _ _ σ).trans h5, ?_⟩
        · rw [drMix_cons, drMix_cons]
          have hc : ∀ x ∈ c, Safe x := fun x hx => hi.safe x (by change x ∈ t; rw [← hce]; simp [hx])
          have hit := ScanP.hit (C := C) (r := spanShape m') (f := fSpan C (spanN C (n + 1))) (pre := pre) (w := m' ++ (a.source ++ (t ++ m')))
            (rest := g ++ drMix C.cfg.uid z xs) (σ := σ) (by simpa [Itm.mark, Itm.text] using hmatch)
            (by simp [marker_ne hm]) (fun gap => runs_fSpanAtt hU hA hm hc) (ScanP.of_skips (safe_skips hm hg _ _) h1)
          rw [hce] at hit
          exact hit
        · simp [h2, Dr.skel, skel, Itm.mark, Itm.text]
        · intro p hp
          rcases List.mem_cons.1 hp with rfl | hp
          · simp [Itm.isRaw]
          · exact h3 p hp
        · intro p hp
          rcases List.mem_cons.1 hp with rfl | hp
          · exact (KnownA.tagged _ a m' t g σ).mono h5
          · exact h4 p hp
        · simp only [raws, List.map_cons, List.countP_cons, Itm.isRaw, PState.tagged] at h6 ⊢
          simp only [if_true, Bool.false_eq_true, if_false]
          omega
      · have hin : m' ∈ ms := by
          have := hr (a, .raw m' t, g) (by simp) rfl
          rcases List.mem_cons.1 this with h | h
          · exact absurd h hmm
          · exact h
        refine stay ?_ (fun _ => hin)
        have hap := hms m' hin
        have hs : ∀ c ∈ a.source ++ t, Safe c := by
          intro c hc
          rcases List.mem_append.1 hc with hc | hc
          · exact hA.safe c hc
          · exact hi.safe c hc
        have hth : SafeHead (((a.source ++ t) ++ m') ++ (g ++ drMix C.cfg.uid z xs)) := by
          obtain ⟨a', u, ha, -⟩ := hi.text.head
          simp only [Itm.text] at ha
          intro c z' e
          cases hat : a.source ++ t with
          | nil => rw [ha] at hat; simp at hat
          | cons y ys =>
            rw [hat] at e
            simp at e
            exact hs c (by rw [hat, e.1]; simp)
        have := (apart_miss (U := C.U) hm hi.mark hap hth pre).append
          ((safe_skips (U := C.U) (rest := m' ++ (g ++ drMix C.cfg.uid z xs)) hm hs _).append
            (apart_miss (U := C.U) hm hi.mark hap (AtGap.safeHead hz) _))
        simpa [Dr.str, List.append_assoc, Itm.mark] using this

/-! ## All markers -/

theorem drSkel_snd {xs ys : List Dr} (e : ys.map Dr.skel = xs.map Dr.skel) : (ys.map Prod.snd).map skel = (xs.map Prod.snd).map skel := by
  have := congrArg (List.map Prod.snd) e
  simpa [Dr.skel, Function.comp_def] using this

theorem drSkel_fst {xs ys : List Dr} (e : ys.map Dr.skel = xs.map Dr.skel) : ys.map Prod.fst = xs.map Prod.fst := by
  have := congrArg (List.map Prod.fst) e
  simpa [Dr.skel, Function.comp_def] using this

theorem DrOk.of_skel {z : Str} {xs ys : List Dr} (h : DrOk z xs) (e : ys.map Dr.skel = xs.map Dr.skel) : DrOk z ys := by
  refine ⟨h.mix.of_skel (drSkel_snd e), fun p hp => ?_⟩
  have : p.1 ∈ xs.map Prod.fst := by rw [← drSkel_fst e]; exact List.mem_map_of_mem hp
  obtain ⟨q, hq, h1⟩ := List.mem_map.1 this
  rw [← h1]; exact h.atts q hq

theorem runs_multiA {C : Ctx} (hU : UniOk C.U) (hu : ∀ c ∈ C.cfg.uid, Safe c) {w0 z : Str} (hw : ∀ c ∈ w0, Safe c) (hzs : ∀ c ∈ z, Safe c) (n : Nat) :
    ∀ (ms : List Str), (∀ m ∈ ms, m ∈ markers) → ms.Pairwise apart → ∀ (xs : List Dr) (σ : PState), DrOk z xs →
    (∀ p ∈ xs, p.2.1.isRaw = true → p.2.1.mark ∈ ms) → (∀ p ∈ xs, KnownA C.cfg.restricted σ p) → (xs ≠ [] → AfterGap w0.reverse) →
    ∃ xs' σ', Runs C (multiReplaceWithOne C (fSpan C (spanN C (n + 1))) (ms.map spanShape) (w0 ++ drMix C.cfg.uid z xs))
        (w0 ++ drMix C.cfg.uid z xs') σ σ' ∧
      xs'.map Dr.skel = xs.map Dr.skel ∧ (∀ p ∈ xs', p.2.1.isRaw = false) ∧ (∀ p ∈ xs', KnownA C.cfg.restricted σ' p) ∧
      Ext σ σ' ∧ σ'.refIndex = σ.refIndex + 2 * raws (xs.map Prod.snd)
  | [], _, _, xs, σ, _, hr, hk, _ => by
    refine ⟨xs, σ, Runs.pure _ _, rfl, ?_, hk, Ext.refl σ, ?_⟩
    · intro p hp
      cases h : p.2.1.isRaw with
      | false => rfl
      | true => have := hr p hp h; simp at this
    · have : raws (xs.map Prod.snd) = 0 := by
        rw [raws, List.countP_eq_zero]
        intro p hp h
        obtain ⟨q, hq, rfl⟩ := List.mem_map.1 hp
        have := hr q hq h; simp at this
      omega
  | m :: ms, hms, hap, xs, σ, hok, hr, hk, hp => by
    have hm := hms m (by simp)
    rw [List.pairwise_cons] at hap
    obtain ⟨ys, σ1, h1, h2, h3, h4, h5, h6⟩ := passA hU hu hzs hm hap.1 n xs w0.reverse σ hok hr hk hp
    obtain ⟨zs, σ2, g1, g2, g3, g4, g5, g6⟩ := runs_multiA hU hu hw hzs n ms (fun m' h => hms m' (List.mem_cons_of_mem _ h)) hap.2 ys σ1
      (hok.of_skel h2) h3 h4 (fun h => hp (by rintro rfl; simp at h2; exact h h2))
    refine ⟨zs, σ2, ?_, by rw [g2, h2], g3, g4, h5.trans g5, by omega⟩
    rw [List.map_cons, multiReplaceWithOne]
    refine Runs.bind (ScanP.runs (spanShape_nonnull m hm) ?_ (ScanP.of_skips (safe_skips hm hw _ _) ?_)) g1
    · intro m; rfl
    · simpa using h1

/-- Inline markup: every marked part is put between placeholders. -/
theorem runs_spanA {C : Ctx} (hU : UniOk C.U) (hu : ∀ c ∈ C.cfg.uid, Safe c) {w0 z : Str} (hw : ∀ c ∈ w0, Safe c) (hzs : ∀ c ∈ z, Safe c) {xs : List Dr} {σ : PState}
    (hd : σ.spanDepth + 1 ≤ C.cfg.maxSpanDepth) (hok : DrOk z xs) (hk : ∀ p ∈ xs, KnownA C.cfg.restricted σ p) (hp : xs ≠ [] → AfterGap w0.reverse) :
    ∃ xs' σ', Runs C (span C (w0 ++ drMix C.cfg.uid z xs)) (w0 ++ drMix C.cfg.uid z xs') σ σ' ∧
      xs'.map Dr.skel = xs.map Dr.skel ∧ (∀ p ∈ xs', p.2.1.isRaw = false) ∧ (∀ p ∈ xs', KnownA C.cfg.restricted σ' p) ∧
      Ext σ σ' ∧ σ'.refIndex = σ.refIndex + 2 * raws (xs.map Prod.snd) := by
  obtain ⟨ys, σ1, h1, h2, h3, h4, h5, h6⟩ := runs_multiA (C := C) hU hu hw hzs C.cfg.maxSpanDepth markers (fun _ h => h) markers_apart xs
    { σ with spanDepth := σ.spanDepth + 1 } hok (fun p hp _ => (hok.mix.items p.2 (List.mem_map_of_mem hp)).mark)
    (fun p hp => by
      obtain ⟨a, i, g⟩ := p
      have := hk _ hp; cases i <;> exact this) hp
  obtain ⟨k, c, rfl, h7, h8⟩ := h5
  refine ⟨ys, { σ with refIndex := k, refCache := c }, ?_, h2, h3, ?_, ⟨k, c, rfl, h7, h8⟩, h6⟩
  · unfold span spanN
    refine (runs_spanEnter σ).bind ?_
    rw [if_pos hd, spanPatterns_eq]
    refine h1.bind ((runs_spanLeave _).bind ?_)
    exact Runs.pure _ _
  · intro p hp
    have := h4 p hp
    obtain ⟨a, i, g⟩ := p
    cases i <;> exact this

end Rustextile
