import Verif.SpecAnchors
import Verif.CiteDoc

/-!
# Links with attributes and titles: what the patterns find
-/

namespace Rustextile

open Prog

theorem linkAtts_groups : linkAtts = groupsRe := by kernel_rfl

/-- The attributes, the text and the title of a link, as they are seen. -/
structure AnSeen where
  gs : List Spec.Group
  text : Str
  ti : Option Str

def AnSeen.inner (p : AnSeen) : Str := p.gs.flatMap Spec.Group.source ++ (p.text ++ Spec.inParens p.ti)

structure AnSeen.Ok (p : AnSeen) : Prop where
  gs : (∀ g ∈ p.gs, g.Ok) ∧ (p.gs.map Spec.Group.kind).Nodup
  first : ∃ c u, p.text = c :: u ∧ isWs c = false
  chars : ∀ c ∈ p.text, c ∉ t!"\n!([{"
  ti : ∀ t, p.ti = some t → t ≠ [] ∧ ')' ∉ t

def titleCap (ti : Option Str) (s : Caps) : Caps :=
  match ti with
  | none => s
  | some t => (4, t) :: s

/-- A lazy repetition: the short texts come first. -/
theorem lazy_set {U : Uni} {n : Bool} {it : List Item} {s : Caps} {R : Str} : ∀ (X pre : Str), (∀ c ∈ X, evalSet U n it c = true) →
    ∃ l1 l2, (Re.star false (.set n it)).all U ⟨pre, X ++ R⟩ s = l1 ++ (⟨X.reverse ++ pre, R⟩, s) :: l2 ∧
      ∀ p ∈ l1, ∃ u v, X = u ++ v ∧ v ≠ [] ∧ p = (⟨u.reverse ++ pre, v ++ R⟩, s)
  | [], pre, _ => by
    cases R with
    | nil => exact ⟨[], [], rfl, by simp⟩
    | cons x R =>
      rw [List.nil_append, all_star_cons]
      exact ⟨[], _, rfl, by simp⟩
  | x :: X, pre, h => by
    obtain ⟨l1, l2, h1, h2⟩ := lazy_set (s := s) (R := R) X (x :: pre) (fun c hc => h c (by simp [hc]))
    rw [List.cons_append, all_star_cons]
    simp only [Bool.false_eq_true, if_false, h x (by simp), if_true, h1]
    refine ⟨(⟨pre, x :: (X ++ R)⟩, s) :: l1, l2, by simp, ?_⟩
    intro p hp
    rcases List.mem_cons.1 hp with rfl | hp
    · exact ⟨[], x :: X, rfl, by simp, rfl⟩
    · obtain ⟨u, v, e, hv, rfl⟩ := h2 p hp
      exact ⟨x :: u, v, by rw [e]; rfl, hv, by simp⟩

theorem Heads.lazySet {U : Uni} {b : Bool} {it : List Item} {n : Nat} {K : Re} {pre X D Z : Str} {s s' : Caps} (hne : X ≠ []) (hX : ∀ c ∈ X, evalSet U b it c = true)
    (hK : Heads U K (X.reverse ++ pre) D Z ((n, X) :: s) s')
    (hno : ∀ u v p s, X = u ++ v → u ≠ [] → v ≠ [] → K.all U ⟨p, v ++ (D ++ Z)⟩ s = []) :
    Heads U (.seq (.grp n (.seq (.set b it) (.star false (.set b it)))) K) pre (X ++ D) Z s s' := by
  obtain ⟨x, Y, rfl⟩ := List.exists_cons_of_ne_nil hne
  obtain ⟨l1, l2, h1, h2⟩ := lazy_set (U := U) (n := b) (it := it) (s := s) (R := D ++ Z) Y (x :: pre) (fun c hc => hX c (by simp [hc]))
  obtain ⟨l, hl⟩ := hK
  have hb : between ⟨pre, x :: Y ++ (D ++ Z)⟩ ⟨(x :: Y).reverse ++ pre, D ++ Z⟩ = x :: Y :=
    Adv.between (⟨rfl, rfl⟩ : Adv ⟨pre, x :: Y ++ (D ++ Z)⟩ (x :: Y) ⟨(x :: Y).reverse ++ pre, D ++ Z⟩)
  refine ⟨l ++ (l2.map (fun p => (p.1, (n, between ⟨pre, x :: Y ++ (D ++ Z)⟩ p.1) :: p.2))).flatMap (fun p => K.all U p.1 p.2), ?_⟩
  have e0 : (Re.seq (.set b it) (.star false (.set b it))).all U ⟨pre, x :: Y ++ (D ++ Z)⟩ s = l1 ++ (⟨(x :: Y).reverse ++ pre, D ++ Z⟩, s) :: l2 := by
    rw [all_seq, List.cons_append, all_set_cons, if_pos (hX x (by simp))]
    simp [h1]
  rw [List.append_assoc, all_seq, Re.all, e0]
  simp only [List.map_append, List.map_cons, List.flatMap_append, List.flatMap_cons, hb, hl]
  have : (l1.map (fun p => (p.1, (n, between ⟨pre, x :: Y ++ (D ++ Z)⟩ p.1) :: p.2))).flatMap (fun p => K.all U p.1 p.2) = [] := by
    rw [List.flatMap_eq_nil_iff]
    intro p hp
    obtain ⟨q, hq, rfl⟩ := List.mem_map.1 hp
    obtain ⟨u, v, e, hv, rfl⟩ := h2 q hq
    exact hno (x :: u) v _ _ (by rw [e]; rfl) (by simp) hv
  rw [this]
  simp

theorem linkTitle_heads {U : Uni} {t pre : Str} {s : Caps} (hne : t ≠ []) (h : ')' ∉ t) :
    Heads U (.seq (.alt linkTitle .eps) .eot) pre ('(' :: (t ++ [')'])) [] s ((4, t) :: s) := by
  have h1 : Heads U linkTitle pre ('(' :: (t ++ [')'])) [] s ((4, t) :: s) := by
    rw [show '(' :: (t ++ [')']) = ['('] ++ (t ++ [')']) from rfl]
    refine Heads.seq .chr (Heads.lazySet hne ?_ .chr ?_)
    · intro x hx
      have : x ≠ ')' := fun e => h (e ▸ hx)
      simp [evalSet, Item.eval_chr, this]
    · intro u v p s e _ hv
      obtain ⟨c, w, rfl⟩ := List.exists_cons_of_ne_nil hv
      have : c ≠ ')' := fun e' => h (by rw [e, e']; simp)
      simp [all_set_cons, evalSet_chr, this]
  have := Heads.seq (b := .eot) (u := '(' :: (t ++ [')'])) (v := []) (rest := []) (Heads.left (b := .eps) h1) .eot
  simpa using this

theorem linkTail_none {U : Uni} {c : Char} {pre z : Str} {s : Caps} (h : c ≠ '(') : (Re.seq (.alt linkTitle .eps) .eot).all U ⟨pre, c :: z⟩ s = [] := by
  rw [all_seq, all_alt, linkTitle, all_seq, all_set_cons]
  simp [evalSet_chr, h, Re.all]

theorem linkTail_heads {U : Uni} {ti : Option Str} {pre : Str} {s : Caps} (h : ∀ t, ti = some t → t ≠ [] ∧ ')' ∉ t) :
    Heads U (.seq (.alt linkTitle .eps) .eot) pre (Spec.inParens ti) [] s (titleCap ti s) := by
  cases ti with
  | none =>
    have h1 : Heads U (.alt linkTitle .eps) pre [] [] s s := .right (by rw [linkTitle, all_seq, List.nil_append, all_set_nil]; rfl) .eps
    have := Heads.seq (b := .eot) (u := []) (v := []) (rest := []) h1 .eot
    simpa [Spec.inParens, titleCap] using this
  | some t => exact linkTitle_heads (h t rfl).1 (h t rfl).2

theorem link_heads {U : Uni} {p : AnSeen} (h : p.Ok) : Heads U LINK_BLOCK_RE [] p.inner [] [] (titleCap p.ti [(2, p.text), (1, p.gs.flatMap Spec.Group.source)]) := by
  obtain ⟨c, u, ec, hc⟩ := h.first
  have hcc := h.chars c (by rw [ec]; simp)
  simp at hcc
  rw [LINK_BLOCK_shape, linkAtts_groups]
  rw [show p.inner = [] ++ (p.gs.flatMap Spec.Group.source ++ ([] ++ (p.text ++ Spec.inParens p.ti))) from rfl]
  refine Heads.seq .bot (Heads.seq (.grp (groups_heads h.gs.1 h.gs.2 ?_)) (Heads.seq (Heads.star (by simp) ?_) ?_))
  · intro x hx
    rw [ec] at hx
    simp at hx; subst hx
    simp [hcc]
  · intro x hx
    rw [ec] at hx
    simp at hx; subst hx
    simp [evalSet, Item.eval, UC.eval, hc]
  · have := Heads.lazySet (U := U) (b := true) (it := [.chr '\n']) (n := 2) (K := .seq (.alt linkTitle .eps) .eot)
      (pre := ([] : Str).reverse ++ ((p.gs.flatMap Spec.Group.source).reverse ++ (([] : Str).reverse ++ []))) (X := p.text) (D := Spec.inParens p.ti) (Z := [])
      (s := [(1, p.gs.flatMap Spec.Group.source)]) (by rw [ec]; simp) (by
        intro x hx
        have := h.chars x hx
        simp at this
        simp [evalSet, Item.eval_chr, this]) (linkTail_heads h.ti) (by
        intro u v q s e _ hv
        obtain ⟨d, w, rfl⟩ := List.exists_cons_of_ne_nil hv
        refine linkTail_none ?_
        rintro rfl
        have := h.chars '(' (by rw [e]; simp)
        simp at this)
    refine this.congr ?_
    rw [all_seq, all_seq]
    have e : ∀ s pre, (Re.grp 2 (.alt (.grp 3 linkImg) linkAny)).all U ⟨pre, p.text ++ Spec.inParens p.ti ++ []⟩ s =
        (Re.grp 2 (.seq (.set true [.chr '\n']) (.star false (.set true [.chr '\n'])))).all U ⟨pre, p.text ++ Spec.inParens p.ti ++ []⟩ s := by
      intro s pre
      have : (Re.grp 3 linkImg).all U ⟨pre, p.text ++ Spec.inParens p.ti ++ []⟩ s = [] := by
        rw [Re.all, linkImg, all_seq, ec, List.cons_append, List.cons_append, all_set_cons]
        simp [evalSet_chr, hcc]
      rw [Re.all, Re.all, this, List.nil_append]
      rfl
    rw [e]

theorem linkParts_seen {C : Ctx} {p : AnSeen} (h : p.Ok) : linkParts C p.inner = (p.gs.flatMap Spec.Group.source, p.text, p.ti.getD []) := by
  have hm := (link_heads (U := C.U) h).matchAt
  have := Re.captures_eq (a := []) (w := p.inner) (rest := []) (by simpa using Re.search_hit hm) (by simp)
  unfold linkParts
  rw [this]
  obtain ⟨c, u, e, -⟩ := h.first
  have hne : p.text.isEmpty = false := by rw [e]; rfl
  cases ht : p.ti <;> simp [titleCap, Mat.grp, Mat.get?, alLookup, hne]

end Rustextile
