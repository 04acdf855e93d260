import Verif.Steps
import Verif.RegexCaps

/-!
# The patterns of inline markup

All ten patterns of parser.rs:1537-1541 have the same shape.  A marker, a text without
the marker that neither starts nor ends with white space, and the marker again match
as a whole, if the text before ends with white space and the text after starts with
white space.
-/

namespace Rustextile

/-- The part of the patterns for attributes. -/
def spanCls : Re :=
  match SPAN_EM_RE with
  | .seq _ (.seq _ (.seq _ (.seq (.grp 3 c) _))) => c
  | _ => .eps

def spanPnct : List Item := SPAN_PNCT.map Item.chr

/-- A literal followed by something else. -/
def litThen : Str → Re → Re
  | [], k => k
  | c :: m, k => .seq (.set false [.chr c]) (litThen m k)

def spanTailRe : Re :=
  .grp 7 (.alt .eot (.alt (.set false [.chr '[', .chr ']', .chr '}', .chr '<'])
    (.look false (.alt (.seq (.seq (.set false spanPnct) (.alt (.seq (.set false spanPnct) .eps) .eps)) (.set true [.range '0' '9']))
      (.alt (.set false [.cls .space]) (.set false [.chr ')']))))))

/-- The text inside the markers. -/
def spanTextRe (m : Str) : Re :=
  .alt (.seq (.set true (.cls .space :: m.map .chr)) (.star true (.set true (.cls .space :: m.map .chr))))
    (.seq (.set false [.ncls .space]) (.seq (.star false (.set true [.chr '\n']))
      (.set true (.cls .space :: m.map .chr ++ [.chr '\n']))))

def spanEndRe (m : Str) : Re := .seq (.grp 6 (.star true (.set false spanPnct))) (litThen m spanTailRe)

def spanPreRe : Re :=
  .grp 1 (.alt .bot (.alt (.behind false 1 (.set false ([.cls .space, .chr '>'] ++ spanPnct ++ [.chr '('])))
    (.set false [.chr '{', .chr '['])))

def spanCiteRe (m : Str) : Re :=
  .alt (.seq (.set false [.chr ':']) (.grp 4 (.seq (.seq (.set false [.ncls .space]) (.star true (.set false [.ncls .space])))
    (.seq (.set true (m.map .chr)) (.set false [.cls .space]))))) .eps

/-- The shape of the patterns. -/
def spanShape (m : Str) : Re :=
  .seq spanPreRe (.seq (.grp 2 (Re.lit m)) (.seq (.look true (Re.lit m)) (.seq (.grp 3 spanCls) (.seq (.look true (Re.lit m))
    (.seq (spanCiteRe m) (.seq (.grp 5 (spanTextRe m)) (spanEndRe m)))))))

/-- The markers, in the order of the patterns. -/
def markers : List Str := [t!"**", t!"*", t!"??", t!"-", t!"__", t!"_", t!"%", t!"+", t!"~", t!"^"]

theorem spanPatterns_eq : spanPatterns = markers.map spanShape := by decide +kernel

/-! ## Choices in order -/

theorem flatMap_head {α β : Type} {k : α → List β} {P : β → Prop} {L2 : List α} : ∀ {L1 : List α},
    (∀ a ∈ L1, ∀ b ∈ k a, P b) → (∃ a ∈ L1, k a ≠ []) → ∃ b l, (L1 ++ L2).flatMap k = b :: l ∧ P b
  | [], _, h => by obtain ⟨a, h, _⟩ := h; simp at h
  | a :: L1, h1, h2 => by
    simp only [List.cons_append, List.flatMap_cons]
    cases hk : k a with
    | cons b l => exact ⟨b, l ++ (L1 ++ L2).flatMap k, rfl, h1 a (by simp) b (by simp [hk])⟩
    | nil =>
      rw [List.nil_append]
      refine flatMap_head (fun x hx => h1 x (List.mem_cons_of_mem _ hx)) ?_
      obtain ⟨x, hx, hne⟩ := h2
      rcases List.mem_cons.1 hx with rfl | hx
      · exact absurd hk hne
      · exact ⟨x, hx, hne⟩

/-- A lazy repetition first tries the beginnings of the text, the short ones first. -/
theorem lazy_split {U : Uni} {n : Bool} {it : List Item} {s : Caps} {z : Str} : ∀ {u pre : Str},
    (∀ c ∈ u, evalSet U n it c = true) →
    ∃ L1 L2, (Re.star false (.set n it)).all U ⟨pre, u ++ z⟩ s = L1 ++ L2 ∧
      (∀ p ∈ L1, ∃ v r, u = v ++ r ∧ p = (⟨v.reverse ++ pre, r ++ z⟩, s)) ∧
      (∀ v r, u = v ++ r → (⟨v.reverse ++ pre, r ++ z⟩, s) ∈ L1)
  | [], pre, _ => by
    cases z with
    | nil =>
      refine ⟨[(⟨pre, []⟩, s)], [], rfl, ?_, ?_⟩
      · intro p hp; simp at hp; exact ⟨[], [], rfl, by simp [hp]⟩
      · intro v r e; simp at e; simp [e.1, e.2]
    | cons x z =>
      rw [List.nil_append, all_star_cons]
      refine ⟨[(⟨pre, x :: z⟩, s)], _, rfl, ?_, ?_⟩
      · intro p hp; simp at hp; exact ⟨[], [], rfl, by simp [hp]⟩
      · intro v r e; simp at e; simp [e.1, e.2]
  | x :: u, pre, h => by
    obtain ⟨L1, L2, h1, h2, h3⟩ := lazy_split (U := U) (s := s) (z := z) (u := u) (pre := x :: pre)
      (fun c hc => h c (List.mem_cons_of_mem _ hc))
    rw [List.cons_append, all_star_cons]
    simp only [Bool.false_eq_true, if_false, h x (by simp), if_true, h1]
    refine ⟨(⟨pre, x :: (u ++ z)⟩, s) :: L1, L2, rfl, ?_, ?_⟩
    · intro p hp
      rcases List.mem_cons.1 hp with rfl | hp
      · exact ⟨[], x :: u, rfl, rfl⟩
      · obtain ⟨v, r, e1, e2⟩ := h2 p hp
        exact ⟨x :: v, r, by rw [e1]; rfl, by rw [e2]; simp⟩
    · intro v r e
      cases v with
      | nil => simp at e; subst e; simp
      | cons y v =>
        simp at e
        obtain ⟨rfl, e⟩ := e
        have := h3 v r e
        simp only [List.mem_cons]
        right
        simpa using this

/-! ## The parts of a pattern -/

theorem spanCls_all {U : Uni} {pre xs : Str} {x : Char} {s : Caps} (h : x ∉ t!"([{") :
    spanCls.all U ⟨pre, x :: xs⟩ s = [(⟨pre, x :: xs⟩, s)] := by
  simp only [List.mem_cons, List.not_mem_nil, or_false, not_or] at h
  obtain ⟨h1, h2, h3⟩ := h
  simp [spanCls, SPAN_EM_RE, all_alt, evalSet_chr, h1, h2, h3, Re.all]

theorem litThen_mem {U : Uni} {k : Re} {p : Cur × Caps} {s : Caps} : ∀ {m pre rest : Str},
    p ∈ (litThen m k).all U ⟨pre, rest⟩ s ↔ ∃ r, rest = m ++ r ∧ p ∈ k.all U ⟨m.reverse ++ pre, r⟩ s
  | [], pre, rest => by simp [litThen]
  | c :: m, pre, rest => by
    rw [litThen]
    cases rest with
    | nil => simp [all_seq_set_nil]
    | cons x xs =>
      rw [all_seq_set_cons, evalSet_chr]
      by_cases hx : x = c
      · subst hx
        simp [litThen_mem]
      · simp [hx]

theorem any_chr {U : Uni} {c : Char} (l : List Char) : (l.map Item.chr).any (fun i => i.eval U c) = decide (c ∈ l) := by
  induction l with
  | nil => rfl
  | cons d l ih => simp only [List.map_cons, List.any_cons, ih, Item.eval_chr]; simp [List.mem_cons, Bool.beq_eq_decide_eq]

theorem pnct_eval {U : Uni} {c : Char} : evalSet U false spanPnct c = true ↔ c ∈ SPAN_PNCT := by
  unfold evalSet spanPnct
  rw [any_chr]; simp

theorem word_eval {U : Uni} {c : Char} {m : Str} :
    evalSet U true (.cls .space :: m.map .chr) c = true ↔ isWs c = false ∧ c ∉ m := by
  unfold evalSet
  rw [List.any_cons, any_chr]
  simp [Item.eval, UC.eval]

theorem last_eval {U : Uni} {c : Char} {m : Str} :
    evalSet U true (.cls .space :: m.map .chr ++ [.chr '\n']) c = true ↔ isWs c = false ∧ c ∉ m ∧ c ≠ '\n' := by
  unfold evalSet
  rw [List.cons_append, List.any_cons, List.any_append, any_chr]
  simp [Item.eval_chr]
  simp [Item.eval, UC.eval]

theorem spanPre_all {U : Uni} {pre xs : Str} {x : Char} (hx : x ∉ t!"{[") (hp : pre = [] ∨ ∃ c p, pre = c :: p ∧ isWs c = true) :
    spanPreRe.all U ⟨pre, x :: xs⟩ [] = [(⟨pre, x :: xs⟩, [(1, [])])] := by
  have hx' : evalSet U false [.chr '{', .chr '['] x = false := by
    have := any_chr (U := U) (c := x) t!"{["
    unfold evalSet
    rw [show [Item.chr '{', Item.chr '['] = (t!"{[" : Str).map Item.chr from rfl, this]
    simpa using hx
  rcases hp with rfl | ⟨c, p, rfl, hc⟩
  · simp [spanPreRe, Re.all, hx', Cur.back, between]
  · have : evalSet U false ([.cls .space, .chr '>'] ++ spanPnct ++ [.chr '(']) c = true := by
      simp [evalSet, Item.eval, UC.eval, hc]
    simp only [List.cons_append, List.nil_append] at this
    simp [spanPreRe, Re.all, hx', Cur.back, between, this]

/-- Characters after a full stop or comma after a marked part. -/
def PlainNext (c : Char) : Prop := c ∉ SPAN_PNCT ∧ c ∉ t!"{[*?-_%+~^" ∧ isDigitC c = false

/-- White space, the end of the text, or a full stop or comma that is followed by an
ordinary character. -/
def AtGap (z : Str) : Prop :=
  z = [] ∨ (∃ c z', z = c :: z' ∧ (c = ' ' ∨ c = '\n')) ∨
    ∃ p c z', z = p :: c :: z' ∧ (p = '.' ∨ p = ',') ∧ PlainNext c

/-- The end of a pattern before white space or at the end of the text. -/
theorem spanTail_all {U : Uni} {pre z : Str} {s : Caps} (hz : AtGap z) :
    spanTailRe.all U ⟨pre, z⟩ s = [(⟨pre, z⟩, (7, []) :: s)] := by
  rcases hz with rfl | ⟨c, z', rfl, hc⟩ | ⟨p, c, z', rfl, hp, hc1, hc2, hc3⟩
  · simp [spanTailRe, Re.all, between]
  · have h1 : evalSet U false [.chr '[', .chr ']', .chr '}', .chr '<'] c = false := by
      rcases hc with rfl | rfl <;> rfl
    have h2 : evalSet U false spanPnct c = false := by
      rcases hc with rfl | rfl <;> rfl
    have h3 : evalSet U false [.cls .space] c = true := by
      rcases hc with rfl | rfl <;> rfl
    simp [spanTailRe, Re.all, h1, h2, h3, between]
  · have h1 : evalSet U false [.chr '[', .chr ']', .chr '}', .chr '<'] p = false := by
      rcases hp with rfl | rfl <;> rfl
    have h2 : evalSet U false spanPnct p = true := by
      rcases hp with rfl | rfl <;> rfl
    have h3 : evalSet U false spanPnct c = false := by
      rw [← Bool.not_eq_true, pnct_eval]; exact hc1
    have h4 : evalSet U true [.range '0' '9'] c = true := by
      simp [isDigitC] at hc3
      simp [evalSet, Item.eval]
      omega
    simp [spanTailRe, Re.all, h1, h2, h3, h4, between]

/-! ## The whole pattern -/

/-- Texts that can stand between markers. -/
structure SpanText (m t : Str) : Prop where
  nom : ∀ c ∈ t, c ∉ m
  nonl : '\n' ∉ t
  head : ∃ a u, t = a :: u ∧ isWs a = false ∧ a ∉ t!":([{"
  last : ∃ u b, t = u ++ [b] ∧ isWs b = false

theorem spanEnd_mem {U : Uni} {m d z pre : Str} {s : Caps} {p : Cur × Caps} (hm : m ∈ markers) (hd : ∀ c ∈ d, c ∉ m)
    (hz : AtGap z) (h : p ∈ (spanEndRe m).all U ⟨pre, d ++ (m ++ z)⟩ s) :
    p = (⟨m.reverse ++ (d.reverse ++ pre), z⟩, (7, []) :: (6, d) :: s) := by
  obtain ⟨c1, s1, h1, h2⟩ := mem_seq.1 h
  obtain ⟨c2, s2, h3, h4⟩ := mem_grp.1 h1
  obtain ⟨e, h5, h6, h7⟩ := mem_star_set.1 h3
  simp only [Prod.mk.injEq] at h4
  obtain ⟨rfl, rfl⟩ := h4
  simp only at h6 h7
  subst h7
  have hb := h6.between
  obtain ⟨p1, r1⟩ := c1
  obtain ⟨h8, h9⟩ := h6
  simp only at h8 h9
  subst h9
  obtain ⟨r, h10, h11⟩ := litThen_mem.1 h2
  subst h10
  rw [hb] at h11
  have hzm : ∀ w a x, z = w ++ a :: x → (∀ c ∈ w, c ∈ SPAN_PNCT) → a ∉ m := by
    intro w a x e hw ham
    have hws : ∀ m ∈ markers, ∀ c ∈ (t!" \n.," : Str), c ∉ m := by decide
    have hsp : ∀ c ∈ (t!" \n" : Str), c ∉ SPAN_PNCT := by decide
    rcases hz with rfl | ⟨c', z'', rfl, hc⟩ | ⟨p, c, z'', rfl, hp, hc1, hc2, -⟩
    · simp at e
    · cases w with
      | nil =>
        simp at e
        exact hws m hm c' (by rcases hc with rfl | rfl <;> decide) (e.1 ▸ ham)
      | cons y w =>
        simp at e
        refine hsp c' (by rcases hc with rfl | rfl <;> decide) ?_
        rw [e.1]; exact hw y (by simp)
    · cases w with
      | nil =>
        simp at e
        exact hws m hm p (by rcases hp with rfl | rfl <;> decide) (e.1 ▸ ham)
      | cons y w =>
        cases w with
        | nil =>
          simp at e
          rw [← e.2.1] at ham
          have : ∀ m ∈ markers, ∀ c ∈ m, c ∈ t!"{[*?-_%+~^" := by decide
          exact hc2 (this m hm c ham)
        | cons y' w =>
          simp at e
          refine hc1 ?_
          rw [e.2.1]; exact hw y' (by simp)
  have key : e = d ∧ r = z := by
    rw [List.append_eq_append_iff] at h8
    rcases h8 with ⟨e', h12, h13⟩ | ⟨d', h12, h13⟩
    · cases e' with
      | nil => simp at h12 h13; exact ⟨h12, h13.symm⟩
      | cons y e' =>
        exfalso
        -- too much taken
        have hy : ∀ c ∈ y :: e', c ∈ SPAN_PNCT := by
          intro c hc
          exact pnct_eval.1 (h5 c (by rw [h12]; simp only [List.mem_append]; exact .inr hc))
        simp only [markers, List.mem_cons, List.not_mem_nil, or_false] at hm
        rcases hm with rfl | rfl | rfl | rfl | rfl | rfl | rfl | rfl | rfl | rfl
        all_goals
          simp only [List.cons_append, List.nil_append, List.cons.injEq] at h13
          obtain ⟨rfl, h13⟩ := h13
          first
          | exact hzm _ _ _ h13 (fun c hc => hy c (List.mem_cons_of_mem _ hc)) (by simp)
          | (cases e' with
             | nil =>
               simp only [List.nil_append, List.cons.injEq, true_and] at h13
               exact hzm [] _ _ h13 (by simp) (by simp)
             | cons y' e' =>
               simp only [List.cons_append, List.cons.injEq] at h13
               obtain ⟨rfl, h13⟩ := h13
               exact hzm e' _ _ h13 (fun c hc => hy c (by simp [hc])) (by simp))
    · cases d' with
      | nil => simp at h12 h13; exact ⟨h12.symm, h13⟩
      | cons y d' =>
        exfalso
        have hy : y ∉ m := hd y (by rw [h12]; simp)
        simp only [markers, List.mem_cons, List.not_mem_nil, or_false] at hm
        rcases hm with rfl | rfl | rfl | rfl | rfl | rfl | rfl | rfl | rfl | rfl
        all_goals
          simp only [List.cons_append, List.cons.injEq] at h13
          exact hy (by rw [← h13.1]; simp)
  obtain ⟨rfl, rfl⟩ := key
  rw [spanTail_all hz] at h11
  simpa using h11

theorem spanEnd_ne {U : Uni} {m z pre : Str} {s : Caps} (hz : AtGap z) : (spanEndRe m).all U ⟨pre, m ++ z⟩ s ≠ [] := by
  intro e
  have h1 : (⟨pre, m ++ z⟩, (6, []) :: s) ∈ (Re.grp 6 (.star true (.set false spanPnct))).all U ⟨pre, m ++ z⟩ s :=
    mem_grp.2 ⟨⟨pre, m ++ z⟩, s, mem_star_set.2 ⟨[], by simp, Adv.refl _, rfl⟩, by simp [between]⟩
  have h2 : (⟨m.reverse ++ pre, z⟩, (7, []) :: (6, []) :: s) ∈ (litThen m spanTailRe).all U ⟨pre, m ++ z⟩ ((6, []) :: s) :=
    litThen_mem.2 ⟨z, rfl, by rw [spanTail_all hz]; simp⟩
  have : (⟨m.reverse ++ pre, z⟩, (7, []) :: (6, []) :: s) ∈ (spanEndRe m).all U ⟨pre, m ++ z⟩ s :=
    mem_seq.2 ⟨_, _, h1, h2⟩
  rw [e] at this
  simp at this

/-- What the part of the pattern for the text takes, in order. -/
theorem spanText_split {U : Uni} {m t z pre : Str} {s : Caps} (hm : m ∈ markers) (ht : SpanText m t) :
    ∃ L1 L2, (spanTextRe m).all U ⟨pre, t ++ (m ++ z)⟩ s = L1 ++ L2 ∧
      (∀ p ∈ L1, ∃ v r, t = v ++ r ∧ p = (⟨v.reverse ++ pre, r ++ (m ++ z)⟩, s)) ∧
      (⟨t.reverse ++ pre, m ++ z⟩, s) ∈ L1 := by
  obtain ⟨a, u, rfl, ha1, ha2⟩ := ht.head
  obtain ⟨m0, m1, rfl⟩ : ∃ m0 m1, m = m0 :: m1 := by
    cases m with
    | nil => exact absurd hm (by decide)
    | cons x l => exact ⟨x, l, rfl⟩
  have hu : ∀ c ∈ u, evalSet U true [.chr '\n'] c = true := by
    intro c hc
    have : c ≠ '\n' := fun e => ht.nonl (by rw [← e]; simp [hc])
    simp [evalSet, Item.eval_chr, this]
  obtain ⟨L1, L2, h1, h2, h3⟩ := lazy_split (U := U) (s := s) (z := m0 :: m1 ++ z) (u := u) (pre := a :: pre) hu
  have hB : (Re.seq (.set false [.ncls .space]) (.seq (.star false (.set true [.chr '\n']))
      (.set true (.cls .space :: (m0 :: m1).map .chr ++ [.chr '\n'])))).all U ⟨pre, a :: u ++ (m0 :: m1 ++ z)⟩ s =
      L1.flatMap (fun p => (Re.set true (.cls .space :: (m0 :: m1).map .chr ++ [.chr '\n'])).all U p.1 p.2) ++
      L2.flatMap (fun p => (Re.set true (.cls .space :: (m0 :: m1).map .chr ++ [.chr '\n'])).all U p.1 p.2) := by
    rw [show a :: u ++ (m0 :: m1 ++ z) = a :: (u ++ (m0 :: m1 ++ z)) from rfl, all_seq_set_cons, if_pos (by simp [evalSet, Item.eval, UC.eval, ha1]), all_seq, h1,
      List.flatMap_append]
  rw [spanTextRe, all_alt, hB, ← List.append_assoc]
  refine ⟨_, _, rfl, ?_, ?_⟩
  · intro p hp
    rcases List.mem_append.1 hp with hp | hp
    · obtain ⟨c1, s1, h4, h5⟩ := mem_seq.1 hp
      obtain ⟨x, xs, h6, h7, h8⟩ := mem_set.1 h4
      simp only [Prod.mk.injEq] at h8
      obtain ⟨rfl, rfl⟩ := h8
      obtain ⟨w, h9, h10, h11⟩ := mem_star_set.1 h5
      obtain ⟨⟨p1, p2⟩, p3⟩ := p
      obtain ⟨h12, h13⟩ := h10
      simp only at h6 h11 h12 h13
      subst h11 h12 h13
      have hw : ∀ c ∈ x :: w, c ∉ m0 :: m1 := by
        intro c hc
        rcases List.mem_cons.1 hc with rfl | hc
        · exact (word_eval.1 h7).2
        · exact (word_eval.1 (h9 c hc)).2
      rw [← List.cons_append, List.append_eq_append_iff] at h6
      rcases h6 with ⟨e, h14, h15⟩ | ⟨d, h14, h15⟩
      · cases e with
        | nil =>
          simp at h14 h15
          exact ⟨x :: w, [], by simp [h14], by simp [← h15]⟩
        | cons y e =>
          exfalso
          simp only [List.cons_append, List.cons.injEq] at h15
          exact hw y (by rw [h14]; simp) (by simp [← h15.1])
      · exact ⟨x :: w, d, h14, by rw [h15]; simp⟩
    · obtain ⟨q, hq, hp⟩ := List.mem_flatMap.1 hp
      obtain ⟨v, r, rfl, rfl⟩ := h2 q hq
      obtain ⟨x, xs, h4, h5, h6⟩ := mem_set.1 hp
      simp only at h4 h6
      obtain ⟨h7, h8, h9⟩ := last_eval.1 h5
      cases r with
      | nil =>
        simp only [List.nil_append, List.cons_append, List.cons.injEq] at h4
        exact absurd (by simp [h4.1]) h8
      | cons y r =>
        simp only [List.cons_append, List.cons.injEq] at h4
        obtain ⟨rfl, rfl⟩ := h4
        exact ⟨a :: v ++ [y], r, by simp, by rw [h6]; simp⟩
  · obtain ⟨w, b, hw, hb⟩ := ht.last
    have hbm : b ∉ m0 :: m1 := ht.nom b (by rw [hw]; simp)
    have hbn : b ≠ '\n' := fun e => ht.nonl (by rw [hw, ← e]; simp)
    rw [List.mem_append]
    cases w with
    | nil =>
      left
      simp at hw
      obtain ⟨rfl, rfl⟩ := hw
      refine mem_seq.2 ⟨⟨a :: pre, m0 :: m1 ++ z⟩, s, ?_, ?_⟩
      · rw [List.cons_append, all_set_cons, if_pos (word_eval.2 ⟨hb, hbm⟩)]; simp
      · exact mem_star_set.2 ⟨[], by simp, Adv.refl _, rfl⟩
    | cons y w =>
      right
      simp only [List.cons_append, List.cons.injEq] at hw
      obtain ⟨rfl, hw⟩ := hw
      subst hw
      refine List.mem_flatMap.2 ⟨_, h3 w [b] rfl, ?_⟩
      refine mem_set.2 ⟨b, m0 :: m1 ++ z, rfl, last_eval.2 ⟨hb, hbm, hbn⟩, ?_⟩
      simp

/-- A marked text matches the pattern of its marker. -/
theorem span_match {U : Uni} {m t z pre : Str} (hm : m ∈ markers) (ht : SpanText m t) (hz : AtGap z)
    (hp : pre = [] ∨ ∃ c p, pre = c :: p ∧ isWs c = true) :
    ∃ c e, c ++ e = t ∧ (spanShape m).matchAt U ⟨pre, m ++ (t ++ (m ++ z))⟩ =
      some (⟨(m ++ (t ++ m)).reverse ++ pre, z⟩, [(7, []), (6, e), (5, c), (3, []), (2, m), (1, [])]) := by
  obtain ⟨a, u, hat, ha1, ha2⟩ := ht.head
  have ham : a ∉ m := ht.nom a (by rw [hat]; simp)
  simp only [List.mem_cons, List.not_mem_nil, or_false, not_or] at ha2
  obtain ⟨hc1, hc2, hc3, hc4⟩ := ha2
  have hnm : ∀ m' ∈ markers, ∃ m0 m1, m' = m0 :: m1 ∧ m0 ∉ t!"{[" := by
    intro m' h
    simp only [markers, List.mem_cons, List.not_mem_nil, or_false] at h
    rcases h with rfl | rfl | rfl | rfl | rfl | rfl | rfl | rfl | rfl | rfl <;> exact ⟨_, _, rfl, by decide⟩
  obtain ⟨m0, m1, hm01, hm0⟩ := hnm m hm
  have hlook : ∀ pre s, (Re.look true (Re.lit m)).all U ⟨pre, t ++ (m ++ z)⟩ s = [(⟨pre, t ++ (m ++ z)⟩, s)] := by
    intro pre s
    have : (Re.lit m).all U ⟨pre, t ++ (m ++ z)⟩ s = [] := by
      rw [Re.lit_all, if_neg]
      rw [hm01, hat]
      intro h
      simp only [List.cons_append, List.isPrefixOf, Bool.and_eq_true, beq_iff_eq] at h
      exact ham (by rw [hm01, ← h.1]; simp)
    simp only [Re.all, this]
    rfl
  obtain ⟨L1, L2, h1, h2, h3⟩ := spanText_split (U := U) (z := z) (pre := m.reverse ++ pre) (s := [(3, []), (2, m), (1, [])]) hm ht
  have hcls : ∀ pre s, (Re.grp 3 spanCls).all U ⟨pre, t ++ (m ++ z)⟩ s = [(⟨pre, t ++ (m ++ z)⟩, (3, []) :: s)] := by
    intro pre s
    rw [hat]
    simp only [List.cons_append]
    rw [Re.all, spanCls_all (by simp [hc2, hc3, hc4])]
    simp [between]
  have hcite : ∀ pre s, (spanCiteRe m).all U ⟨pre, t ++ (m ++ z)⟩ s = [(⟨pre, t ++ (m ++ z)⟩, s)] := by
    intro pre s
    rw [hat]
    simp only [List.cons_append]
    rw [spanCiteRe, all_alt, all_seq_set_cons, evalSet_chr, if_neg (by simpa using hc1)]
    rfl
  have hlit : ∀ s, (Re.grp 2 (Re.lit m)).all U ⟨pre, m ++ (t ++ (m ++ z))⟩ s =
      [(⟨m.reverse ++ pre, t ++ (m ++ z)⟩, (2, m) :: s)] := by
    intro s
    rw [Re.all, Re.lit_all, if_pos (by simp)]
    simp [between]
  have hpre : spanPreRe.all U ⟨pre, m ++ (t ++ (m ++ z))⟩ [] = [(⟨pre, m ++ (t ++ (m ++ z))⟩, [(1, [])])] := by
    rw [hm01]
    exact spanPre_all hm0 hp
  have hall : (spanShape m).all U ⟨pre, m ++ (t ++ (m ++ z))⟩ [] =
      (L1 ++ L2).flatMap (fun q => (spanEndRe m).all U q.1
        ((5, between ⟨m.reverse ++ pre, t ++ (m ++ z)⟩ q.1) :: q.2)) := by
    rw [spanShape, all_seq, hpre]
    simp only [List.flatMap_cons, List.flatMap_nil, List.append_nil]
    rw [all_seq, hlit]
    simp only [List.flatMap_cons, List.flatMap_nil, List.append_nil]
    rw [all_seq, hlook]
    simp only [List.flatMap_cons, List.flatMap_nil, List.append_nil]
    rw [all_seq, hcls]
    simp only [List.flatMap_cons, List.flatMap_nil, List.append_nil]
    rw [all_seq, hlook]
    simp only [List.flatMap_cons, List.flatMap_nil, List.append_nil]
    rw [all_seq, hcite]
    simp only [List.flatMap_cons, List.flatMap_nil, List.append_nil]
    rw [all_seq, Re.all, h1, List.flatMap_map]
  obtain ⟨b, l, hb, c, e, hce, hb'⟩ := flatMap_head (L1 := L1) (L2 := L2)
    (k := fun q => (spanEndRe m).all U q.1 ((5, between ⟨m.reverse ++ pre, t ++ (m ++ z)⟩ q.1) :: q.2))
    (P := fun b => ∃ c e, c ++ e = t ∧ b = (⟨(m ++ (t ++ m)).reverse ++ pre, z⟩,
      [(7, []), (6, e), (5, c), (3, []), (2, m), (1, [])]))
    (by
      intro q hq b hb
      obtain ⟨v, r, e1, rfl⟩ := h2 q hq
      have hbet : between ⟨m.reverse ++ pre, t ++ (m ++ z)⟩ ⟨v.reverse ++ (m.reverse ++ pre), r ++ (m ++ z)⟩ = v := by
        rw [e1]; simp [between]
      simp only [hbet] at hb
      have := spanEnd_mem hm (fun c hc => ht.nom c (by rw [e1]; simp [hc])) hz hb
      refine ⟨v, r, e1.symm, ?_⟩
      rw [this, e1]
      simp)
    ⟨_, h3, spanEnd_ne hz⟩
  refine ⟨c, e, hce, ?_⟩
  rw [Re.matchAt_eq, hall, hb, hb']
  rfl

theorem spanShape_nonnull : ∀ m ∈ markers, (spanShape m).nonnull = true := by decide +kernel

end Rustextile
