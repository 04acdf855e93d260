import Verif.Grow

/-!
# Texts between delimiters that are set aside: inline code and verbatim text
-/

namespace Rustextile

open Prog

/-! ## The patterns -/

/-- The characters of a literal, one after the other, and then the rest. -/
def lits : Str → Re → Re
  | [], r => r
  | c :: w, r => .seq (.set false [.chr c]) (lits w r)

theorem lits_all (U : Uni) (r : Re) : ∀ (w pre rest : Str) (s : Caps), (lits w r).all U ⟨pre, rest⟩ s =
    if w.isPrefixOf rest then r.all U ⟨w.reverse ++ pre, rest.drop w.length⟩ s else []
  | [], pre, rest, s => by simp [lits]
  | a :: w, pre, [], s => by simp [lits, all_seq_set_nil]
  | a :: w, pre, x :: xs, s => by
    rw [lits, all_seq_set_cons, lits_all U r w, evalSet_chr]
    by_cases h : a = x
    · subst h; simp [List.isPrefixOf]
    · have h' : ¬ x = a := fun e => h e.symm
      simp [List.isPrefixOf, h, h']

theorem lits_hit (U : Uni) (r : Re) (w pre rest : Str) (s : Caps) :
    (lits w r).all U ⟨pre, w ++ rest⟩ s = r.all U ⟨w.reverse ++ pre, rest⟩ s := by
  rw [lits_all, if_pos (by simp)]; simp

theorem lits_none {U : Uni} {r : Re} {w pre rest : Str} {s : Caps} (h : ¬ w <+: rest) : (lits w r).all U ⟨pre, rest⟩ s = [] := by
  rw [lits_all, if_neg]
  intro hp; exact h (List.isPrefixOf_iff_prefix.1 hp)

def spBefore : Re :=
  .alt .bol (.alt (.set false [.cls .space]) (.set false [.chr '[', .chr '(', .chr '{', .chr '>', .chr '|']))

def spAfter : Re := .alt (.grp 3 (.alt .eol (.set false [.chr ']', .chr ')', .chr '}']))) .eps

/-- A text between delimiters. -/
def spShape (st en : Str) : Re :=
  .seq (.grp 1 spBefore) (lits st (.seq (.grp 2 (.star false (.set true []))) (lits en spAfter)))

theorem SP_NOTEXTILE_shape : SP_NOTEXTILE_RE = spShape t!"<notextile>" t!"</notextile>" := by kernel_rfl
theorem SP_EQ_shape : SP_EQ_RE = spShape t!"==" t!"==" := by kernel_rfl
theorem SP_CODE_shape : SP_CODE_RE = spShape t!"<code>" t!"</code>" := by kernel_rfl
theorem SP_AT_shape : SP_AT_RE = spShape t!"@" t!"@" := by kernel_rfl

theorem lazy_head {U : Uni} {s : Caps} {k : Cur × Caps → List (Cur × Caps)} {t : Str} {y : Cur × Caps} : ∀ {c pre : Str},
    (∀ u v, c = u ++ v → v ≠ [] → k (⟨u.reverse ++ pre, v ++ t⟩, s) = []) →
    (∃ l, k (⟨c.reverse ++ pre, t⟩, s) = y :: l) →
    ∃ l, ((Re.star false (.set true [])).all U ⟨pre, c ++ t⟩ s).flatMap k = y :: l
  | [], pre, _, ⟨l, hl⟩ => by
    simp only [List.reverse_nil, List.nil_append] at hl ⊢
    cases t with
    | nil => exact ⟨l, by rw [all_star_nil]; simp [hl]⟩
    | cons x t => exact ⟨_, by rw [all_star_cons]; simp only [Bool.false_eq_true, if_false, List.flatMap_cons, hl]; rfl⟩
  | x :: c, pre, h, hl => by
    have h0 := h [] (x :: c) rfl (by simp)
    obtain ⟨l, ih⟩ := lazy_head (U := U) (s := s) (k := k) (t := t) (y := y) (c := c) (pre := x :: pre)
      (fun u v e hv => by have := h (x :: u) v (by rw [e]; rfl) hv; simpa using this) (by simpa using hl)
    refine ⟨l, ?_⟩
    rw [List.cons_append, all_star_cons]
    simp only [Bool.false_eq_true, if_false, List.flatMap_cons, evalSet_nil, if_true, ih]
    simp only [List.reverse_nil, List.nil_append, List.cons_append] at h0
    rw [h0]; rfl

theorem spAfter_head {U : Uni} {pre rest : Str} {s : Caps} (h : ∀ x, rest.head? = some x → x ∉ t!"])}") :
    ∃ s' l, spAfter.all U ⟨pre, rest⟩ s = (⟨pre, rest⟩, s') :: l ∧ (s' = s ∨ s' = (3, []) :: s) := by
  have hset : (Re.set false [.chr ']', .chr ')', .chr '}']).all U ⟨pre, rest⟩ s = [] := by
    rw [all_set_eq_nil]
    intro x xs e
    have := h x (by simp at e; rw [e]; rfl)
    simp at this
    simp [evalSet, Item.eval_chr, this]
  have hb : between ⟨pre, rest⟩ ⟨pre, rest⟩ = [] := by simp [between]
  by_cases he : rest = [] ∨ rest.head? = some '\n'
  · have : Re.eol.all U ⟨pre, rest⟩ s = [(⟨pre, rest⟩, s)] := by
      simp only [Re.all]
      rcases he with rfl | he
      · rfl
      · cases rest with
        | nil => simp at he
        | cons x r => simp at he; subst he; simp
    refine ⟨(3, []) :: s, [(⟨pre, rest⟩, s)], ?_, .inr rfl⟩
    have h2 : (Re.grp 3 (.alt .eol (.set false [.chr ']', .chr ')', .chr '}']))).all U ⟨pre, rest⟩ s =
        ((Re.alt .eol (.set false [.chr ']', .chr ')', .chr '}'])).all U ⟨pre, rest⟩ s).map
          (fun p => (p.1, (3, between ⟨pre, rest⟩ p.1) :: p.2)) := rfl
    rw [spAfter, all_alt, h2, all_alt, this, hset]
    simp [hb, Re.all]
  · have : Re.eol.all U ⟨pre, rest⟩ s = [] := by
      cases hl : Re.eol.all U ⟨pre, rest⟩ s with
      | nil => rfl
      | cons p l =>
        have := (mem_eol (U := U) (c := ⟨pre, rest⟩) (s := s) (p := p)).1 (by rw [hl]; simp)
        exact absurd this.1 he
    refine ⟨s, [], ?_, .inl rfl⟩
    rw [spAfter, all_alt]
    have h2 : (Re.grp 3 (.alt .eol (.set false [.chr ']', .chr ')', .chr '}']))).all U ⟨pre, rest⟩ s = [] := by
      cases hl : (Re.grp 3 (.alt .eol (.set false [.chr ']', .chr ')', .chr '}']))).all U ⟨pre, rest⟩ s with
      | nil => rfl
      | cons p l =>
        obtain ⟨c', s', h1, -⟩ := (mem_grp (U := U) (p := p)).1 (by rw [hl]; simp)
        rw [mem_alt, this, hset] at h1
        simp at h1
    rw [h2]; rfl

/-- What comes before the delimiter. -/
def BeforeSp (pre w : Str) : Prop :=
  (w = [] ∧ (pre = [] ∨ pre.head? = some '\n')) ∨ ∃ x, w = [x] ∧ isWs x = true

/-- A text between delimiters is found. -/
theorem sp_hit {U : Uni} {st en c rest pre w : Str} {d : Char} (hd : st.head? = some d) (hdw : isWs d = false) (hw : BeforeSp pre w)
    (hl : ∀ u v, c = u ++ v → v ≠ [] → ¬ en <+: v ++ (en ++ rest)) (hr : ∀ x, rest.head? = some x → x ∉ t!"])}") :
    ∃ s, (spShape st en).matchAt U ⟨pre, (w ++ (st ++ (c ++ en))) ++ rest⟩ =
      some (⟨(w ++ (st ++ (c ++ en))).reverse ++ pre, rest⟩, s) ∧ ∀ gap whole, (⟨gap, whole, s⟩ : Mat).grp 1 = w ∧
        (⟨gap, whole, s⟩ : Mat).grp 2 = c ∧ (⟨gap, whole, s⟩ : Mat).grp 3 = [] := by
  obtain ⟨s', l', h1, h2⟩ := spAfter_head (U := U) (pre := en.reverse ++ (c.reverse ++ (st.reverse ++ (w.reverse ++ pre)))) (rest := rest)
    (s := [(2, c), (1, w)]) hr
  refine ⟨s', ?_, ?_⟩
  · have key : ∃ l, (lits st (.seq (.grp 2 (.star false (.set true []))) (lits en spAfter))).all U
        ⟨w.reverse ++ pre, st ++ (c ++ (en ++ rest))⟩ [(1, w)] =
        (⟨en.reverse ++ (c.reverse ++ (st.reverse ++ (w.reverse ++ pre))), rest⟩, s') :: l := by
      rw [lits_hit, all_seq]
      simp only [Re.all, List.flatMap_map]
      have := lazy_head (U := U) (s := [(1, w)]) (t := en ++ rest) (c := c) (pre := st.reverse ++ (w.reverse ++ pre))
        (k := fun q => (lits en spAfter).all U q.1 ((2, between ⟨st.reverse ++ (w.reverse ++ pre), c ++ (en ++ rest)⟩ q.1) :: q.2))
        (y := (⟨en.reverse ++ (c.reverse ++ (st.reverse ++ (w.reverse ++ pre))), rest⟩, s'))
        (fun u v e hv => lits_none (hl u v e hv)) (by
          simp only
          rw [lits_hit, show between ⟨st.reverse ++ (w.reverse ++ pre), c ++ (en ++ rest)⟩
            ⟨c.reverse ++ (st.reverse ++ (w.reverse ++ pre)), en ++ rest⟩ = c by simp [between], h1]
          exact ⟨_, rfl⟩)
      obtain ⟨l, hl⟩ := this
      exact ⟨l, hl⟩
    obtain ⟨l, hkey⟩ := key
    have hnd : ∀ pre s, (lits st (.seq (.grp 2 (.star false (.set true []))) (lits en spAfter))).all U
        ⟨pre, w ++ (st ++ (c ++ (en ++ rest)))⟩ s = [] ∨ w = [] := by
      intro pre s
      rcases hw with ⟨h, -⟩ | ⟨x, rfl, hx⟩
      · exact .inr h
      · left
        apply lits_none
        cases st with
        | nil => simp at hd
        | cons a st =>
          simp at hd; subst hd
          rintro ⟨z, hz⟩
          simp at hz
          rw [← hz.1] at hx; rw [hx] at hdw; cases hdw
    rw [Re.matchAt_eq, spShape, all_seq]
    have e1 : (w ++ (st ++ (c ++ en))) ++ rest = w ++ (st ++ (c ++ (en ++ rest))) := by simp
    rw [e1]
    have hgoal : ((w ++ (st ++ (c ++ en))).reverse ++ pre) = en.reverse ++ (c.reverse ++ (st.reverse ++ (w.reverse ++ pre))) := by simp
    rw [hgoal]
    have hg1 : ∃ A B, spBefore.all U ⟨pre, w ++ (st ++ (c ++ (en ++ rest)))⟩ [] = A ++ (⟨w.reverse ++ pre, st ++ (c ++ (en ++ rest))⟩, []) :: B ∧
        ∀ q ∈ A, q = (⟨pre, w ++ (st ++ (c ++ (en ++ rest)))⟩, []) ∧ w ≠ [] := by
      rcases hw with ⟨rfl, hp⟩ | ⟨x, rfl, hx⟩
      · refine ⟨[], ?_⟩
        have : Re.bol.all U ⟨pre, [] ++ (st ++ (c ++ (en ++ rest)))⟩ [] = [(⟨pre, [] ++ (st ++ (c ++ (en ++ rest)))⟩, [])] := by
          simp only [Re.all]
          rcases hp with rfl | hp
          · rfl
          · cases pre with
            | nil => rfl
            | cons y p => simp at hp; subst hp; simp
        rw [spBefore, all_alt, this]
        exact ⟨_, rfl, by simp⟩
      · refine ⟨Re.bol.all U ⟨pre, [x] ++ (st ++ (c ++ (en ++ rest)))⟩ [], (Re.set false [.chr '[', .chr '(', .chr '{', .chr '>', .chr '|']).all U ⟨pre, [x] ++ (st ++ (c ++ (en ++ rest)))⟩ [], ?_, ?_⟩
        · rw [spBefore, all_alt, all_alt]
          have : (Re.set false [.cls .space]).all U ⟨pre, [x] ++ (st ++ (c ++ (en ++ rest)))⟩ [] = [(⟨x :: pre, st ++ (c ++ (en ++ rest))⟩, [])] := by
            rw [List.singleton_append, all_set_cons, if_pos]
            simp only [evalSet, List.any_cons, List.any_nil, Item.eval, UC.eval, hx]; rfl
          rw [this]; rfl
        · intro q hq
          obtain ⟨-, h⟩ := mem_bol.1 hq
          exact ⟨h, by simp⟩
    obtain ⟨A, B, hAB, hA⟩ := hg1
    have hall : ((Re.grp 1 spBefore).all U ⟨pre, w ++ (st ++ (c ++ (en ++ rest)))⟩ []) =
        A.map (fun p => (p.1, (1, between ⟨pre, w ++ (st ++ (c ++ (en ++ rest)))⟩ p.1) :: p.2)) ++
        (⟨w.reverse ++ pre, st ++ (c ++ (en ++ rest))⟩, [(1, w)]) ::
        B.map (fun p => (p.1, (1, between ⟨pre, w ++ (st ++ (c ++ (en ++ rest)))⟩ p.1) :: p.2)) := by
      rw [Re.all, hAB, List.map_append, List.map_cons]
      simp [between]
    rw [hall, List.flatMap_append, List.flatMap_cons, hkey]
    have hA0 : (A.map (fun p => (p.1, (1, between ⟨pre, w ++ (st ++ (c ++ (en ++ rest)))⟩ p.1) :: p.2))).flatMap
        (fun p => (lits st (.seq (.grp 2 (.star false (.set true []))) (lits en spAfter))).all U p.1 p.2) = [] := by
      rw [List.flatMap_eq_nil_iff]
      intro p hp
      obtain ⟨q, hq, rfl⟩ := List.mem_map.1 hp
      obtain ⟨rfl, hne⟩ := hA q hq
      rcases hnd pre ((1, between ⟨pre, w ++ (st ++ (c ++ (en ++ rest)))⟩ ⟨pre, w ++ (st ++ (c ++ (en ++ rest)))⟩) :: []) with h | h
      · exact h
      · exact absurd h hne
    rw [hA0]; rfl
  · intro gap whole
    rcases h2 with rfl | rfl <;> exact ⟨rfl, rfl, rfl⟩

/-- Where the delimiter is neither at this position nor at the next, nothing is found. -/
theorem sp_miss {U : Uni} {st en pre xs : Str} {x : Char} (h1 : ¬ st <+: x :: xs) (h2 : ¬ st <+: xs) :
    (spShape st en).matchAt U ⟨pre, x :: xs⟩ = none := by
  rw [Re.matchAt_none]
  cases hl : (spShape st en).all U ⟨pre, x :: xs⟩ [] with
  | nil => rfl
  | cons p l =>
    exfalso
    have hp : p ∈ (spShape st en).all U ⟨pre, x :: xs⟩ [] := by rw [hl]; simp
    obtain ⟨c1, s1, g1, g2⟩ := mem_seq.1 hp
    obtain ⟨c2, s2, g3, g4⟩ := mem_grp.1 g1
    cases g4
    have hc : c1 = ⟨pre, x :: xs⟩ ∨ c1 = ⟨x :: pre, xs⟩ := by
      rw [spBefore, mem_alt, mem_alt] at g3
      rcases g3 with g | g | g
      · left; have := (mem_bol.1 g).2; cases this; rfl
      · right; obtain ⟨y, ys, e, -, e'⟩ := mem_set.1 g; cases e; cases e'; rfl
      · right; obtain ⟨y, ys, e, -, e'⟩ := mem_set.1 g; cases e; cases e'; rfl
    rcases hc with rfl | rfl
    · rw [lits_none h1] at g2; cases g2
    · rw [lits_none h2] at g2; cases g2

theorem sp_end {U : Uni} {st en pre : Str} (h : st ≠ []) : (spShape st en).matchAt U ⟨pre, []⟩ = none := by
  rw [Re.matchAt_none]
  cases hl : (spShape st en).all U ⟨pre, []⟩ [] with
  | nil => rfl
  | cons p l =>
    exfalso
    have hp : p ∈ (spShape st en).all U ⟨pre, []⟩ [] := by rw [hl]; simp
    obtain ⟨c1, s1, g1, g2⟩ := mem_seq.1 hp
    obtain ⟨w, hw⟩ := Re.all_adv U _ _ _ _ g1
    have : c1.rest = [] := by have := hw.1; simp at this; exact this.2
    rw [show c1 = ⟨c1.pre, c1.rest⟩ from rfl, this, lits_none (by simpa using h)] at g2
    cases g2

/-- Without the delimiter nothing is found. -/
theorem sp_search_none {U : Uni} {st en t : Str} (hst : st ≠ []) (h : containsStr st t = false) :
    (spShape st en).search U [] t = none := by
  apply Re.search_none_of
  intro a b e
  cases hl : (spShape st en).all U ⟨a.reverse ++ [], b⟩ [] with
  | nil => rfl
  | cons p l =>
    exfalso
    have hp : p ∈ (spShape st en).all U ⟨a.reverse ++ [], b⟩ [] := by rw [hl]; simp
    obtain ⟨c1, s1, g1, g2⟩ := mem_seq.1 hp
    obtain ⟨w, hw⟩ := Re.all_adv U _ _ _ _ g1
    have hn : ¬ st <+: c1.rest := by
      rintro ⟨z, hz⟩
      have h2 : b = w ++ c1.rest := hw.1
      rw [containsStr_iff.2 ⟨a ++ w, z, by rw [e, h2, ← hz]; simp⟩] at h
      cases h
    rw [show c1 = ⟨c1.pre, c1.rest⟩ from rfl, lits_none hn] at g2
    cases g2

end Rustextile
