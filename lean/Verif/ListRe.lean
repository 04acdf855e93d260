import Verif.ListLoop

/-!
# Recognising lists

What the expressions of parser.rs:847-858 find in the source of a list.
-/

namespace Rustextile

open Prog

/-! ## First choices -/

/-- The first choice of an expression is to match `w`. -/
def Heads (U : Uni) (r : Re) (pre w rest : Str) (s s' : Caps) : Prop :=
  ∃ l, r.all U ⟨pre, w ++ rest⟩ s = (⟨w.reverse ++ pre, rest⟩, s') :: l

theorem Heads.seq {U : Uni} {a b : Re} {pre u v rest : Str} {s s1 s' : Caps} (h : Heads U a pre u (v ++ rest) s s1)
    (h' : Heads U b (u.reverse ++ pre) v rest s1 s') : Heads U (.seq a b) pre (u ++ v) rest s s' := by
  obtain ⟨l, hl⟩ := h
  obtain ⟨l', hl'⟩ := h'
  refine ⟨l' ++ l.flatMap (fun p => b.all U p.1 p.2), ?_⟩
  rw [List.append_assoc, all_seq, hl, List.flatMap_cons, hl']
  simp

theorem Heads.left {U : Uni} {a b : Re} {pre w rest : Str} {s s' : Caps} (h : Heads U a pre w rest s s') :
    Heads U (.alt a b) pre w rest s s' := by
  obtain ⟨l, hl⟩ := h
  exact ⟨l ++ b.all U ⟨pre, w ++ rest⟩ s, by simp [Re.all, hl]⟩

theorem Heads.right {U : Uni} {a b : Re} {pre w rest : Str} {s s' : Caps} (hn : a.all U ⟨pre, w ++ rest⟩ s = [])
    (h : Heads U b pre w rest s s') : Heads U (.alt a b) pre w rest s s' := by
  obtain ⟨l, hl⟩ := h
  exact ⟨l, by simp [Re.all, hl, hn]⟩

theorem Heads.grp {U : Uni} {n : Nat} {r : Re} {pre w rest : Str} {s s' : Caps} (h : Heads U r pre w rest s s') :
    Heads U (.grp n r) pre w rest s ((n, w) :: s') := by
  obtain ⟨l, hl⟩ := h
  have : Adv ⟨pre, w ++ rest⟩ w ⟨w.reverse ++ pre, rest⟩ := ⟨rfl, rfl⟩
  refine ⟨l.map (fun p => (p.1, (n, between ⟨pre, w ++ rest⟩ p.1) :: p.2)), ?_⟩
  rw [Re.all, hl, List.map_cons, this.between]

theorem Heads.set {U : Uni} {n : Bool} {it : List Item} {pre rest : Str} {c : Char} {s : Caps} (h : evalSet U n it c = true) :
    Heads U (.set n it) pre [c] rest s s := ⟨[], by simp [Re.all, h]⟩

theorem Heads.star {U : Uni} {n : Bool} {it : List Item} {pre w rest : Str} {s : Caps} (h : ∀ x ∈ w, evalSet U n it x = true)
    (h' : ∀ x, rest.head? = some x → evalSet U n it x = false) : Heads U (.star true (.set n it)) pre w rest s s :=
  star_greedy_head h h'

theorem Heads.plus {U : Uni} {n : Bool} {it : List Item} {pre w rest : Str} {s : Caps} (hne : w ≠ [])
    (h : ∀ x ∈ w, evalSet U n it x = true) (h' : ∀ x, rest.head? = some x → evalSet U n it x = false) :
    Heads U (.seq (.set n it) (.star true (.set n it))) pre w rest s s := by
  cases w with
  | nil => exact absurd rfl hne
  | cons c w =>
    exact Heads.seq (u := [c]) (v := w) (.set (h c (by simp))) (.star (fun x hx => h x (by simp [hx])) h')

theorem Heads.eps {U : Uni} {pre rest : Str} {s : Caps} : Heads U .eps pre [] rest s s := ⟨[], rfl⟩
theorem Heads.bot {U : Uni} {rest : Str} {s : Caps} : Heads U .bot [] [] rest s s := ⟨[], rfl⟩
theorem Heads.eot {U : Uni} {pre : Str} {s : Caps} : Heads U .eot pre [] [] s s := ⟨[], rfl⟩
theorem Heads.bol {U : Uni} {rest : Str} {s : Caps} : Heads U .bol [] [] rest s s := ⟨[], rfl⟩
theorem Heads.eol {U : Uni} {pre : Str} {s : Caps} : Heads U .eol pre [] [] s s := ⟨[], by simp [Re.all]⟩

theorem Heads.notend {U : Uni} {pre : Str} {it : List Item} {s : Caps} : Heads U (.look true (.set true it)) pre [] [] s s :=
  ⟨[], by simp [Re.all]⟩

theorem Heads.matchAt {U : Uni} {r : Re} {pre w rest : Str} {s : Caps} (h : Heads U r pre w rest [] s) :
    r.matchAt U ⟨pre, w ++ rest⟩ = some (⟨w.reverse ++ pre, rest⟩, s) := by
  obtain ⟨l, hl⟩ := h
  rw [Re.matchAt_eq, hl]; rfl

/-! ## The expressions -/

/-- Attributes of an item. -/
def listCls : Re :=
  match LISTS_RE with
  | .seq _ (.seq (.grp _ (.seq _ (.seq a _))) _) => a
  | _ => .eps

def listEnd : Re := .seq (.set false [.chr ' ', .chr '.']) (.star true (.set true []))
def bulletRe : Re := .seq (.set false [.chr '*', .chr ';', .chr ':']) (.star true (.set false [.chr '*', .chr ';', .chr ':']))
def numberRe : Re := .seq (.set false [.cls .digit]) (.star true (.set false [.cls .digit]))
def startRe : Re := .alt (.set false [.chr '_']) numberRe
def hashRe : Re := .seq (.star true (.set false [.chr '*', .chr ';', .chr ':', .chr '#']))
  (.seq (.set false [.chr '#']) (.alt startRe .eps))

theorem LISTS_parts : LISTS_RE = .seq .bol (.seq (.grp 1 (.seq (.alt bulletRe hashRe) (.seq listCls listEnd)))
    (.seq .eol (.look true (.set true [.chr '#', .chr '*', .chr ';', .chr ':'])))) := by kernel_rfl

def marksRe : Re := .seq (.set false [.chr '#', .chr '*', .chr ';', .chr ':']) (.star true (.set false [.chr '#', .chr '*', .chr ';', .chr ':']))

theorem LINE_shape : LINE_PARSER_RE = .seq .bot (.seq (.grp 1 marksRe) (.seq (.alt (.grp 2 startRe) .eps) (.seq (.grp 3 listCls)
    (.seq (.set false [.chr ' ', .chr '.']) (.seq (.grp 4 (.star true (.set true []))) .eot))))) := by kernel_rfl

theorem cls_space (U : Uni) (pre rest : Str) (s : Caps) : Heads U listCls pre [] (' ' :: rest) s s := ⟨[], by kernel_rfl⟩

/-- What can be between the marks and the blank. -/
def Suffix (s : Str) : Prop := s = [] ∨ s = t!"_" ∨ (s ≠ [] ∧ ∀ c ∈ s, isDigitC c = true)

theorem digit_nd {U : Uni} (hU : UniOk U) {c : Char} (h : isDigitC c = true) : evalSet U false [.cls .digit] c = true := by
  have hc : 48 ≤ c.toNat ∧ c.toNat ≤ 57 := by simpa [isDigitC] using h
  have := hU.dec c (by omega)
  simp [evalSet, Item.eval, UC.eval, this, isDig]
  omega

theorem nd_false {U : Uni} (hU : UniOk U) {c : Char} (h : c.toNat < 128) (h' : isDig c = false) : evalSet U false [.cls .digit] c = false := by
  have := hU.dec c h
  simp [evalSet, Item.eval, UC.eval, this, h']

theorem start_heads {U : Uni} (hU : UniOk U) {m : Str} (hs : Suffix m) (hne : m ≠ []) (pre rest : Str) (s : Caps) :
    Heads U startRe pre m (' ' :: rest) s s := by
  rcases hs with rfl | rfl | ⟨-, hd⟩
  · exact absurd rfl hne
  · exact .left (.set (by simp [evalSet, Item.eval_chr]))
  · refine .right ?_ (.plus hne (fun c hc => digit_nd hU (hd c hc)) ?_)
    · cases m with
      | nil => exact absurd rfl hne
      | cons c m =>
        have hc := hd c (by simp)
        have : evalSet U false [.chr '_'] c = false := by
          rw [evalSet_chr]
          simp; rintro rfl; revert hc; decide
        simp [Re.all, this]
    · intro x hx
      simp at hx; subst hx
      exact nd_false hU (by decide) (by decide)

theorem opt_start {U : Uni} (hU : UniOk U) {m : Str} (hs : Suffix m) (pre rest : Str) (s : Caps) :
    Heads U (.alt startRe .eps) pre m (' ' :: rest) s s := by
  by_cases hne : m = []
  · subst hne
    refine .right ?_ .eps
    have := nd_false hU (c := ' ') (by decide) (by decide)
    simp [startRe, numberRe, Re.all, evalSet_chr, this]
  · exact .left (start_heads hU hs hne ..)

theorem all_heads {U : Uni} {pre w : Str} {s : Caps} : Heads U (.star true (.set true [])) pre w [] s s :=
  .star (fun _ _ => rfl) (by simp)

theorem end_heads {U : Uni} {pre w : Str} {s : Caps} : Heads U listEnd pre (' ' :: w) [] s s :=
  Heads.seq (u := [' ']) (v := w) (.set (by simp [evalSet, Item.eval_chr])) all_heads

/-- A list takes everything up to the end of the text. -/
theorem LISTS_match {U : Uni} (hU : UniOk U) (k : Spec.ListKind) {m : Str} (hs : Suffix m) (hk : k.ordered = false → m = []) (rest : Str) :
    ∃ s, LISTS_RE.matchAt U ⟨[], k.mark :: (m ++ ' ' :: rest)⟩ = some (⟨(k.mark :: (m ++ ' ' :: rest)).reverse, []⟩, s) := by
  have hmark : Heads U (.alt bulletRe hashRe) [] (k.mark :: m) (' ' :: rest) [] [] := by
    cases ho : k.ordered with
    | false =>
      rw [hk ho]
      have : k.mark = '*' := by simp [Spec.ListKind.mark, ho]
      rw [this]
      refine .left (Heads.plus (w := ['*']) (by simp) ?_ ?_)
      · simp [evalSet, Item.eval_chr]
      · simp [evalSet, Item.eval_chr]
    | true =>
      have : k.mark = '#' := by simp [Spec.ListKind.mark, ho]
      rw [this]
      refine .right ?_ ?_
      · simp [bulletRe, Re.all, evalSet, Item.eval_chr]
      · obtain ⟨l, hl⟩ := opt_start hU hs (pre := ['#']) (rest := rest) (s := [])
        have h1 : (Re.star true (.set false [.chr '*', .chr ';', .chr ':', .chr '#'])).all U ⟨[], '#' :: (m ++ ' ' :: rest)⟩ [] =
            [(⟨['#'], m ++ ' ' :: rest⟩, []), (⟨[], '#' :: (m ++ ' ' :: rest)⟩, [])] := by
          rw [all_star_cons]
          simp only [if_true]
          have hx : ∀ x, (m ++ ' ' :: rest).head? = some x → evalSet U false [.chr '*', .chr ';', .chr ':', .chr '#'] x = false := by
            intro x hx
            rcases hs with rfl | rfl | ⟨hne, hd⟩
            · simp at hx; subst hx; simp [evalSet, Item.eval_chr]
            · simp at hx; subst hx; simp [evalSet, Item.eval_chr]
            · cases m with
              | nil => exact absurd rfl hne
              | cons c m =>
                simp at hx; subst hx
                have hc := hd c (by simp)
                simp only [evalSet, List.any_cons, Item.eval_chr, List.any_nil]
                simp
                refine ⟨?_, ?_, ?_, ?_⟩ <;> rintro rfl <;> revert hc <;> decide
          cases hr : m ++ ' ' :: rest with
          | nil => simp at hr
          | cons x xs =>
            have hx := hx x (by rw [hr]; rfl)
            rw [all_star_cons, hx]
            simp [evalSet, Item.eval_chr]
        refine ⟨l, ?_⟩
        have h2 : ∀ (s : Caps) c, (Re.seq (.set false [.chr '#']) (.alt startRe .eps)).all U c s =
          ((Re.set false [.chr '#']).all U c s).flatMap (fun p => (Re.alt startRe .eps).all U p.1 p.2) := fun s c => all_seq ..
        rw [hashRe, all_seq]
        simp only [List.cons_append, h1, List.flatMap_cons, List.flatMap_nil, List.append_nil, h2]
        have h3 : (Re.set false [.chr '#']).all U ⟨['#'], m ++ ' ' :: rest⟩ [] = [] := by
          rcases hs with rfl | rfl | ⟨hne, hd⟩
          · simp [Re.all, evalSet_chr]
          · simp [Re.all, evalSet_chr]
          · cases m with
            | nil => exact absurd rfl hne
            | cons c m =>
              have hc := hd c (by simp)
              have : evalSet U false [.chr '#'] c = false := by
                rw [evalSet_chr]; simp; rintro rfl; revert hc; decide
              simp [Re.all, this]
        have h4 : (Re.set false [.chr '#']).all U ⟨[], '#' :: (m ++ ' ' :: rest)⟩ [] = [(⟨['#'], m ++ ' ' :: rest⟩, [])] := by
          simp [Re.all, evalSet_chr]
        rw [h3, h4]
        simp only [List.flatMap_nil, List.nil_append, List.flatMap_cons, List.append_nil]
        rw [hl]; simp
  have hbody : Heads U (.grp 1 (.seq (.alt bulletRe hashRe) (.seq listCls listEnd))) [] (k.mark :: (m ++ ' ' :: rest)) [] []
      [(1, k.mark :: (m ++ ' ' :: rest))] := by
    refine .grp ?_
    have := Heads.seq (u := k.mark :: m) (v := ' ' :: rest) (rest := []) (by simpa using hmark)
      (Heads.seq (u := []) (v := ' ' :: rest) (by simpa using cls_space U _ rest []) end_heads)
    simpa using this
  refine ⟨[(1, k.mark :: (m ++ ' ' :: rest))], ?_⟩
  have : Heads U LISTS_RE [] (k.mark :: (m ++ ' ' :: rest)) [] [] [(1, k.mark :: (m ++ ' ' :: rest))] := by
    rw [LISTS_parts]
    have := Heads.seq (U := U) (u := []) (v := k.mark :: (m ++ ' ' :: rest) ++ []) (rest := []) .bol
      (Heads.seq (u := k.mark :: (m ++ ' ' :: rest)) (v := []) (by simpa using hbody)
        (Heads.seq (u := []) (v := []) .eol
          (Heads.notend (it := [.chr '#', .chr '*', .chr ';', .chr ':']))))
    simpa using this
  simpa using this.matchAt

/-- A line of a list. -/
theorem LINE_captures {U : Uni} (hU : UniOk U) {m s : Str} (hm : Marker m) (hs : Suffix s) (rest : Str) :
    ∃ q, LINE_PARSER_RE.captures U (m ++ (s ++ ' ' :: rest)) = some q ∧ q.grp 1 = m ∧ q.grp 2 = s ∧ q.grp 3 = [] ∧ q.grp 4 = rest := by
  have hstart : ∃ cs, Heads U (.alt (.grp 2 startRe) .eps) (m.reverse ++ []) s (' ' :: rest) [(1, m)] cs ∧
      cs = if s = [] then [(1, m)] else [(2, s), (1, m)] := by
    by_cases hne : s = []
    · subst hne
      refine ⟨_, .right ?_ .eps, by simp⟩
      have := nd_false hU (c := ' ') (by decide) (by decide)
      simp [startRe, numberRe, Re.all, evalSet_chr, this]
    · exact ⟨_, .left (start_heads hU hs hne ..).grp, by simp [hne]⟩
  obtain ⟨cs, hcs, he⟩ := hstart
  have : Heads U LINE_PARSER_RE [] (m ++ (s ++ ' ' :: rest)) [] [] ((4, rest) :: (3, []) :: cs) := by
    rw [LINE_shape]
    have h4 := Heads.seq (U := U) (pre := [' '] ++ (s.reverse ++ m.reverse)) (s := (3, []) :: cs) (u := rest) (v := []) (rest := [])
      (Heads.grp (n := 4) (by simpa using all_heads)) .eot
    have h3 := Heads.seq (U := U) (pre := s.reverse ++ m.reverse) (a := .set false [.chr ' ', .chr '.']) (s := (3, []) :: cs) (u := [' ']) (v := rest ++ []) (rest := [])
      (.set (by simp [evalSet, Item.eval_chr])) h4
    have h2 := Heads.seq (U := U) (pre := s.reverse ++ m.reverse) (s := cs) (u := []) (v := [' '] ++ (rest ++ [])) (rest := [])
      (Heads.grp (n := 3) (by simpa using cls_space U (s.reverse ++ m.reverse) rest cs)) (by simpa using h3)
    have h1 := Heads.seq (U := U) (pre := m.reverse ++ []) (u := s) (v := [] ++ ([' '] ++ (rest ++ []))) (rest := []) (by simpa using hcs) (by simpa using h2)
    have hmk : Heads U marksRe [] m ((s ++ ([] ++ ([' '] ++ (rest ++ [])))) ++ []) [] [] := by
      refine .plus hm.ne ?_ ?_
      · intro c hc
        rcases hm.chars c hc with rfl | rfl <;> simp [evalSet, Item.eval_chr]
      · intro x hx
        rcases hs with rfl | rfl | ⟨hne, hd⟩
        · simp at hx; subst hx; simp [evalSet, Item.eval_chr]
        · simp at hx; subst hx; simp [evalSet, Item.eval_chr]
        · cases s with
          | nil => exact absurd rfl hne
          | cons c s =>
            simp at hx; subst hx
            have hc := hd c (by simp)
            simp only [evalSet, List.any_cons, Item.eval_chr, List.any_nil]
            simp
            refine ⟨?_, ?_, ?_, ?_⟩ <;> rintro rfl <;> revert hc <;> decide
    have h0 := Heads.seq (U := U) (u := m) (v := s ++ ([] ++ ([' '] ++ (rest ++ [])))) (rest := []) hmk.grp h1
    have := Heads.seq (U := U) (u := []) (v := m ++ (s ++ ([] ++ ([' '] ++ (rest ++ []))))) (rest := []) .bot (by simpa using h0)
    simpa using this
  have hm' := this.matchAt
  rw [List.append_nil] at hm'
  refine ⟨_, by rw [Re.captures, Re.search_hit hm'], ?_, ?_, ?_, ?_⟩ <;> subst he <;> by_cases hne : s = [] <;>
    simp [Mat.grp, Mat.get?, alLookup, hne]

/-! ## Lines -/

theorem SPLIT_none {U : Uni} {pre xs : Str} {x : Char} (h : x ≠ '\n') : LISTS_SPLIT_RE.matchAt U ⟨pre, x :: xs⟩ = none := by
  have : evalSet U false [.chr '\n'] x = false := by rw [evalSet_chr]; simpa using h
  simp [Re.matchAt_eq, LISTS_SPLIT_RE, Re.all, this]

theorem SPLIT_end {U : Uni} {pre xs : Str} (h : ∀ x, xs.head? = some x → x ∉ t!"*#;:") :
    LISTS_SPLIT_RE.matchAt U ⟨pre, '\n' :: xs⟩ = none := by
  have h0 : evalSet U false [.chr '\n'] '\n' = true := by rw [evalSet_chr]; rfl
  cases xs with
  | nil => simp [Re.matchAt_eq, LISTS_SPLIT_RE, Re.all, h0]
  | cons x xs =>
    have := h x rfl
    have h1 : evalSet U false [.chr '*', .chr '#', .chr ';', .chr ':'] x = false := by
      simpa [evalSet, Item.eval_chr] using this
    simp [Re.matchAt_eq, LISTS_SPLIT_RE, Re.all, h0, h1]

theorem SPLIT_hit {U : Uni} {pre xs : Str} {x : Char} (h : x = '*' ∨ x = '#') :
    LISTS_SPLIT_RE.matchAt U ⟨pre, '\n' :: x :: xs⟩ = some (⟨'\n' :: pre, x :: xs⟩, []) := by
  have h0 : evalSet U false [.chr '\n'] '\n' = true := by rw [evalSet_chr]; rfl
  have h1 : evalSet U false [.chr '*', .chr '#', .chr ';', .chr ':'] x = true := by
    rcases h with rfl | rfl <;> simp [evalSet, Item.eval_chr]
  simp [Re.matchAt_eq, LISTS_SPLIT_RE, Re.all, h0, h1]

/-- A line of a list: no newline, and a mark at the beginning. -/
structure ListLine (l : Str) : Prop where
  nonl : '\n' ∉ l
  mark : ∃ x xs, l = x :: xs ∧ (x = '*' ∨ x = '#')

/-- The last of the lines, extended. -/
def extendLast (z : Str) : List Str → List Str
  | [] => []
  | [l] => [l ++ z]
  | l :: m :: ls => l :: extendLast z (m :: ls)

theorem split_list_segs {U : Uni} : ∀ {ls : List Str}, ls ≠ [] → (∀ l ∈ ls, ListLine l) → ∀ pre,
    ∃ ms tail, Segs U LISTS_SPLIT_RE pre (Spec.join t!"\n" ls ++ t!"\n\n") ms tail ∧
      (ms.flatMap (fun m => m.gap :: (List.range 0).map (fun i => m.grp (i + 1)))) ++ [tail] = extendLast t!"\n\n" ls
  | [], h, _, _ => absurd rfl h
  | [l], _, h, pre => by
    refine ⟨[], l ++ t!"\n\n", Segs.done ?_, rfl⟩
    have hl := (h l (by simp)).nonl
    have hsk : Skips U LISTS_SPLIT_RE pre (l ++ t!"\n\n") [] := by
      intro u x v e
      by_cases hx : x = '\n'
      · subst hx
        apply SPLIT_end
        intro y hy
        have : y = '\n' := by
          rcases List.append_eq_append_iff.1 e with ⟨a, rfl, e2⟩ | ⟨a, rfl, e2⟩
          · cases a with
            | nil => simp at e2; subst e2; simp at hy; exact hy.symm
            | cons b a => simp at e2; obtain ⟨rfl, e2⟩ := e2; cases a with
              | nil => simp at e2; subst e2; simp at hy
              | cons c a => simp at e2
          · cases a with
            | nil => simp at e2; subst e2; simp at hy; exact hy.symm
            | cons b a => simp at e2; obtain ⟨rfl, e2⟩ := e2; exact absurd (by simp) hl
        subst this; decide
      · exact SPLIT_none hx
    have := Re.search_skips hsk
    simp only [List.append_nil] at this
    rw [show Spec.join t!"\n" [l] = l by simp [Spec.join], this]
    rfl
  | l :: m :: ls, _, h, pre => by
    obtain ⟨ms, tail, h1, h2⟩ := split_list_segs (U := U) (ls := m :: ls) (by simp)
      (fun q hq => h q (List.mem_cons_of_mem _ hq)) (['\n'] ++ (l.reverse ++ pre))
    refine ⟨⟨l, ['\n'], []⟩ :: ms, tail, ?_, ?_⟩
    · rw [join_cons (by simp), List.append_assoc, List.append_assoc]
      refine Segs.hit ?_ ?_ (by simp) h1
      · intro u x v e
        refine SPLIT_none ?_
        rintro rfl
        exact (h l (by simp)).nonl (by rw [e]; simp)
      · obtain ⟨x, xs, e, hx⟩ := (h m (by simp)).mark
        obtain ⟨ys, hy⟩ : ∃ ys, Spec.join t!"\n" (m :: ls) ++ t!"\n\n" = x :: ys := by
          cases ls with
          | nil => exact ⟨_, by rw [Spec.join, e]; rfl⟩
          | cons q ls => exact ⟨_, by rw [join_cons (by simp), e]; rfl⟩
        rw [hy]
        exact SPLIT_hit hx
    · rw [extendLast, ← h2]
      rfl

/-- A list falls into its lines. -/
theorem split_list (U : Uni) {ls : List Str} (hne : ls ≠ []) (h : ∀ l ∈ ls, ListLine l) :
    LISTS_SPLIT_RE.split U 0 (Spec.join t!"\n" ls ++ t!"\n\n") = extendLast t!"\n\n" ls := by
  obtain ⟨ms, tail, h1, h2⟩ := split_list_segs (U := U) hne h []
  unfold Re.split
  rw [Re.matches_of_Segs h1]
  exact h2

/-! ## Items -/

/-- The last of the items, extended. -/
def extendItem (z : Str) : List ListItem → List ListItem
  | [] => []
  | [i] => [{ i with content := i.content ++ z }]
  | i :: j :: is => i :: extendItem z (j :: is)

def itemText (i : ListItem) : Str := i.tl ++ (i.st ++ ' ' :: i.content)

/-- An item as it comes from a line. -/
structure ItemOk (i : ListItem) : Prop where
  tl : Marker i.tl
  st : Suffix i.st
  atts : i.atts = []

theorem listItems_eq {U : Uni} (hU : UniOk U) : ∀ {is : List ListItem} {acc : List ListItem}, (∀ i ∈ is, ItemOk i) →
    listItems U acc (is.map itemText) = acc.reverse ++ is
  | [], acc, _ => by simp [listItems]
  | i :: is, acc, h => by
    have hi := h i (by simp)
    obtain ⟨q, h1, h2, h3, h4, h5⟩ := LINE_captures hU hi.tl hi.st i.content
    rw [List.map_cons]
    conv => lhs; unfold listItems
    simp only [itemText, h1, h2, h3, h4, h5]
    have e : (⟨i.tl, i.st, [], i.content⟩ : ListItem) = i := by
      rw [← hi.atts]
    rw [e]
    have := listItems_eq hU (is := is) (acc := i :: acc) (fun j hj => h j (by simp [hj]))
    simpa [itemText] using this

theorem extend_map : ∀ (is : List ListItem) (z : Str), extendLast z (is.map itemText) = (extendItem z is).map itemText
  | [], _ => rfl
  | [i], z => by simp [extendLast, extendItem, itemText]
  | i :: j :: is, z => by
    have := extend_map (j :: is) z
    simp only [List.map_cons] at this ⊢
    rw [extendLast, this]; rfl

theorem extend_ok {z : Str} : ∀ {is : List ListItem}, (∀ i ∈ is, ItemOk i) → ∀ i ∈ extendItem z is, ItemOk i
  | [], h, i, hi => by cases hi
  | [j], h, i, hi => by
    simp [extendItem] at hi; subst hi
    have := h j (by simp)
    exact ⟨this.tl, this.st, this.atts⟩
  | j :: k :: is, h, i, hi => by
    rw [extendItem] at hi
    rcases List.mem_cons.1 hi with rfl | hi
    · exact h i (by simp)
    · exact extend_ok (is := k :: is) (fun x hx => h x (List.mem_cons_of_mem _ hx)) i hi

theorem suffix_ok (k : Spec.ListKind) : Suffix k.suffix := by
  cases k with
  | bullets => exact .inl rfl
  | numbers => exact .inl rfl
  | numbersFrom n =>
    refine .inr (.inr ?_)
    rw [show Spec.ListKind.suffix (.numbersFrom n) = natStr n from natStr_numeral n]
    exact ⟨natStr_ne_nil n, natStr_digits n⟩
  | numbersOn => exact .inr (.inl rfl)

theorem flat_ok : ∀ {t : Spec.Items} {m s : Str}, Marker m → Suffix s → ∀ i ∈ flat m s t, ItemOk i
  | .done, m, s, _, _, i, hi => by cases hi
  | .item t k sub next, m, s, hm, hs, i, hi => by
    rw [flat] at hi
    rcases List.mem_cons.1 hi with rfl | hi
    · exact ⟨hm, hs, rfl⟩
    · rcases List.mem_append.1 hi with hi | hi
      · exact flat_ok (hm.snoc k) (suffix_ok k) i hi
      · exact flat_ok hm (.inl rfl) i hi

theorem lines_flat : ∀ (t : Spec.Items) (m s : Str), t.lines m s = (flat m s t).map itemText
  | .done, _, _ => rfl
  | .item t k sub next, m, s => by
    rw [Spec.Items.lines, flat, lines_flat sub, lines_flat next]
    simp [itemText, mkItem]

/-! ## The loop does not depend on blanks around the texts -/

/-- What matters of an item. -/
def ListItem.key (i : ListItem) : Str × Str × Str × Str := (i.tl, i.st, i.atts, trim i.content)

theorem itemLine_key {U : Uni} {p p' n n' : Option ListItem} {i j : ListItem} {a : Str} {L : List (Str × Nat)}
    (hp : p.map ListItem.tl = p'.map ListItem.tl) (hn : n.map ListItem.tl = n'.map ListItem.tl) (h : i.key = j.key) :
    itemLine U p n i a L = itemLine U p' n' j a L := by
  obtain ⟨it, is, ia, ic⟩ := i
  obtain ⟨jt, js, ja, jc⟩ := j
  simp only [ListItem.key, Prod.mk.injEq] at h
  obtain ⟨rfl, rfl, rfl, h⟩ := h
  have e1 : endsItem n ⟨it, is, ia, ic⟩ = endsItem n' ⟨it, is, ia, jc⟩ := by
    cases n <;> cases n' <;> simp at hn
    · rfl
    · exact congrArg (fun n => decide (List.length n ≤ it.length)) hn
  have e2 : leavesList n = leavesList n' := by
    funext k
    cases n <;> cases n' <;> simp at hn
    · rfl
    · exact congrArg (fun n => decide (k.length > List.length n)) hn
  have e3 : keepLists n = keepLists n' := by funext L; simp [keepLists, e2]
  have e4 : ∀ L t l, closeLists U t l n L = closeLists U t l n' L := by
    intro L t l
    induction L with
    | nil => rfl
    | cons q L ih => obtain ⟨a, b⟩ := q; rw [closeLists, closeLists, ih, e2]
  unfold itemLine
  simp only [h, e1, e3, e4, ListItem.level]
  cases p <;> cases p' <;> simp at hp
  · rfl
  · simp only [hp]

theorem listLoop_key (C : Ctx) : ∀ (is js : List ListItem) (p p' : Option ListItem) (L : List (Str × Nat)),
    is.map ListItem.key = js.map ListItem.key → p.map ListItem.tl = p'.map ListItem.tl → listLoop C p L is = listLoop C p' L js
  | [], [], p, p', L, _, _ => by
    conv => lhs; unfold listLoop
    conv => rhs; unfold listLoop
  | [], _ :: _, _, _, _, h, _ => by simp at h
  | _ :: _, [], _, _, _, h, _ => by simp at h
  | i :: is, j :: js, p, p', L, h, hp => by
    simp only [List.map_cons, List.cons.injEq] at h
    obtain ⟨h, ht⟩ := h
    have hn : is.head?.map ListItem.tl = js.head?.map ListItem.tl := by
      cases is <;> cases js <;> simp [ListItem.key] at ht ⊢
      exact ht.1.1
    have hl := fun a => itemLine_key (U := C.U) (a := a) (L := L) hp hn h
    obtain ⟨it, is', ia, ic⟩ := i
    obtain ⟨jt, js', ja, jc⟩ := j
    have h' := h
    simp only [ListItem.key, Prod.mk.injEq] at h'
    obtain ⟨rfl, rfl, rfl, hc⟩ := h'
    have ih := fun L => listLoop_key C is js (some ⟨it, is', ia, ic⟩) (some ⟨it, is', ia, jc⟩) L ht rfl
    have ho : ∀ f n a, olStart ⟨it, is', ia, ic⟩ f (!(trim ic).isEmpty) n a = olStart ⟨it, is', ia, jc⟩ f (!(trim jc).isEmpty) n a := by
      intro f n a
      rw [hc]; rfl
    cases p with
    | none =>
      cases p' with
      | some q => simp at hp
      | none =>
        conv => lhs; unfold listLoop
        conv => rhs; unfold listLoop
        simp only [hl, ih, ho]
    | some r =>
      cases p' with
      | none => simp at hp
      | some q =>
        simp only [Option.map_some, Option.some.injEq] at hp
        have hd : decide ((⟨it, is', ia, ic⟩ : ListItem).level > r.level) = decide ((⟨it, is', ia, jc⟩ : ListItem).level > q.level) :=
          congrArg (fun n => decide (it.length > List.length n)) hp
        conv => lhs; unfold listLoop
        conv => rhs; unfold listLoop
        simp only [hl, ih, ho, hd]

theorem trim_append {s z : Str} (hz : ∀ c ∈ z, isWs c = true) : trim (s ++ z) = trim s := by
  unfold trim trimP trimStartP
  induction s with
  | nil =>
    rw [List.nil_append, dropWhile_eq_nil.2 hz]; rfl
  | cons c s ih =>
    rw [List.cons_append, List.dropWhile_cons, List.dropWhile_cons]
    split
    · exact ih
    · rw [← List.cons_append, trimEndP_append_of_all hz]

theorem extend_key {z : Str} (hz : ∀ c ∈ z, isWs c = true) : ∀ (is : List ListItem), (extendItem z is).map ListItem.key = is.map ListItem.key
  | [] => rfl
  | [i] => by
    simp only [extendItem, List.map_cons, List.map_nil, List.cons.injEq, and_true, ListItem.key, Prod.mk.injEq, true_and]
    exact trim_append hz
  | i :: j :: is => by
    have := extend_key hz (j :: is)
    rw [extendItem, List.map_cons, this]; rfl

end Rustextile
