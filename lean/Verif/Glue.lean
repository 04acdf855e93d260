import Verif.Rendered
import Verif.Props.Newlines

/-!
# Texts separated by empty lines
-/

namespace Rustextile

open Spec (glue)

def nls (k : Nat) : Str := List.replicate k '\n'

theorem glue_cons {t : Str} {k : Nat} {ps : List (Str × Nat)} (h : ps ≠ []) :
    glue ((t, k) :: ps) = t ++ (nls (k + 2) ++ glue ps) := by
  cases ps with
  | nil => exact absurd rfl h
  | cons p ps => rfl

/-- A function on texts that works piece by piece. -/
structure Local (F : Str → Str) : Prop where
  nil : F [] = []
  nl : ∀ t, F ('\n' :: t) = '\n' :: F t

/-- The function turns `p` into `p'`, at the end of a text and before a newline. -/
def Turns (F : Str → Str) (p p' : Str) : Prop := ∀ r, (r = [] ∨ ∃ r', r = '\n' :: r') → F (p ++ r) = p' ++ F r

theorem Local.nls {F : Str → Str} (h : Local F) (k : Nat) (t : Str) : F (nls k ++ t) = Rustextile.nls k ++ F t := by
  induction k with
  | zero => rfl
  | succ k ih => rw [show Rustextile.nls (k + 1) ++ t = '\n' :: (Rustextile.nls k ++ t) from rfl, h.nl, ih]; rfl

theorem Local.glue {F : Str → Str} (h : Local F) {α : Type} {f g : α → Str} {m : α → Nat} : ∀ {ps : List α},
    (∀ p ∈ ps, Turns F (f p) (g p)) →
    F (glue (ps.map (fun p => (f p, m p)))) = Spec.glue (ps.map (fun p => (g p, m p)))
  | [], _ => h.nil
  | [p], hp => by
    have := hp p (by simp) [] (.inl rfl)
    rw [h.nil] at this
    simpa [Spec.glue] using this
  | p :: q :: ps, hp => by
    have h1 := hp p (by simp)
    have ih := Local.glue h (ps := q :: ps) (f := f) (g := g) (m := m) (fun q hq => hp q (List.mem_cons_of_mem _ hq))
    have e : ∀ f : α → Str, Spec.glue ((p :: q :: ps).map (fun p => (f p, m p))) =
      f p ++ (Rustextile.nls (m p + 2) ++ Spec.glue ((q :: ps).map (fun p => (f p, m p)))) := fun _ => rfl
    rw [e, e, h1 (Rustextile.nls (m p + 2) ++ _) (.inr ⟨Rustextile.nls (m p + 1) ++ _, rfl⟩), h.nls, ih]

theorem Turns.comp {F G : Str → Str} {a b c : Str} (hG : Local F) (h : Turns F a b) (h' : Turns G b c) :
    Turns (fun t => G (F t)) a c := by
  intro r hr
  simp only
  rw [h r hr]
  rcases hr with rfl | ⟨r', rfl⟩
  · rw [hG.nil]; exact h' [] (.inl rfl)
  · rw [hG.nl]; exact h' _ (.inr ⟨_, rfl⟩)

theorem Local.comp {F G : Str → Str} (h : Local F) (h' : Local G) : Local (fun t => G (F t)) :=
  ⟨by simp only [h.nil, h'.nil], fun t => by simp only [h.nl, h'.nl]⟩

theorem Local.id : Local (fun t => t) := ⟨rfl, fun _ => rfl⟩

/-! ## Words without newlines -/

theorem prefix_cut {k p r : Str} (hk : '\n' ∉ k) (hr : r = [] ∨ ∃ r', r = '\n' :: r') (h : k <+: p ++ r) : k <+: p := by
  obtain ⟨x, hx⟩ := h
  rw [List.append_eq_append_iff] at hx
  rcases hx with ⟨y, rfl, -⟩ | ⟨y, rfl, h⟩
  · exact ⟨y, rfl⟩
  · cases y with
    | nil => exact ⟨[], by simp⟩
    | cons z y =>
      rcases hr with rfl | ⟨r', rfl⟩
      · simp at h
      · simp at h; exact absurd (by simp [← h.1]) hk

/-- A word without newline in a glued text is in one of the parts. -/
theorem not_contains_append {k p r : Str} (hk : '\n' ∉ k) (hne : k ≠ []) (hr : r = [] ∨ ∃ r', r = '\n' :: r')
    (hp : containsStr k p = false) (hc : containsStr k r = false) : containsStr k (p ++ r) = false := by
  cases h : containsStr k (p ++ r) with
  | false => rfl
  | true =>
    exfalso
    obtain ⟨a, b, e⟩ := containsStr_iff.1 h
    rw [List.append_eq_append_iff] at e
    rcases e with ⟨x, rfl, e⟩ | ⟨x, rfl, e⟩
    · rw [containsStr_iff.2 ⟨x, b, e⟩] at hc; cases hc
    · have := prefix_cut hk hr ⟨b, e⟩
      obtain ⟨y, rfl⟩ := this
      rw [containsStr_iff.2 ⟨a, y, rfl⟩] at hp; cases hp

theorem not_contains_nls {k : Str} (hk : '\n' ∉ k) (hne : k ≠ []) {t : Str} (h : containsStr k t = false) : ∀ n,
    containsStr k (nls n ++ t) = false
  | 0 => h
  | n + 1 => by
    have ih := not_contains_nls hk hne h n
    cases h : containsStr k (nls (n + 1) ++ t) with
    | false => rfl
    | true =>
      exfalso
      obtain ⟨a, b, e⟩ := containsStr_iff.1 h
      cases a with
      | nil =>
        cases k with
        | nil => exact hne rfl
        | cons c k => simp [nls, List.replicate_succ] at e; exact hk (by rw [e.1]; simp)
      | cons y a =>
        simp [nls, List.replicate_succ] at e
        rw [show nls n = List.replicate n '\n' from rfl, containsStr_iff.2 ⟨a, b, e.2⟩] at ih; cases ih

theorem not_contains_glue {k : Str} (hk : '\n' ∉ k) (hne : k ≠ []) : ∀ {ps : List (Str × Nat)},
    (∀ p ∈ ps, containsStr k p.1 = false) → containsStr k (glue ps) = false
  | [], _ => by
    cases k with
    | nil => exact absurd rfl hne
    | cons c k => rfl
  | [(t, n)], h => h (t, n) (by simp)
  | (t, n) :: p :: ps, h => by
    rw [glue_cons (by simp)]
    refine not_contains_append hk hne (.inr ⟨_, rfl⟩) (h (t, n) (by simp)) ?_
    exact not_contains_nls hk hne (not_contains_glue hk hne (fun q hq => h q (List.mem_cons_of_mem _ hq))) _

theorem replaceStr_skip {k v : Str} : ∀ {w r : Str}, (∀ u y t, w = u ++ y :: t → ¬ k <+: y :: t ++ r) →
    replaceStr k v (w ++ r) = w ++ replaceStr k v r
  | [], r, _ => rfl
  | y :: w, r, h => by
    rw [List.cons_append, replaceStr_miss]
    · rw [replaceStr_skip (w := w) (fun u z t e => h (y :: u) z t (by simp [e]))]; rfl
    · rw [Bool.eq_false_iff]
      intro hp
      obtain ⟨x, hx⟩ := isPrefixOf_iff.1 hp
      exact h [] y w rfl ⟨x, hx.symm⟩

theorem replaceStr_nil {k v : Str} (hk : k ≠ []) : replaceStr k v [] = [] :=
  replaceStr_none (by cases k with | nil => exact absurd rfl hk | cons => rfl)

theorem replaceStr_local {k v : Str} (hk : '\n' ∉ k) (hne : k ≠ []) : Local (replaceStr k v) where
  nil := replaceStr_nil hne
  nl t := by
    refine replaceStr_skip (w := ['\n']) ?_
    intro u y t' e
    cases u with
    | cons => simp at e
    | nil =>
      simp at e
      obtain ⟨rfl, rfl⟩ := e
      rintro ⟨x, hx⟩
      cases k with
      | nil => exact hne rfl
      | cons c k => simp at hx; exact hk (by simp [hx.1])

theorem replaceStr_turns {k v p : Str} (hk : '\n' ∉ k) (hp : containsStr k p = false) : Turns (replaceStr k v) p p := by
  intro r hr
  apply replaceStr_skip
  intro u y t e h
  obtain ⟨x, hx⟩ := prefix_cut hk hr h
  rw [containsStr_iff.2 ⟨u, x, by rw [e, ← hx]⟩] at hp
  cases hp

/-- A piece that consists of the word, between texts ending and starting with other
characters. -/
theorem replaceStr_token {k v a z : Str} (hk : '\n' ∉ k) (hne : k ≠ []) (ha : ∀ c ∈ a.getLast?, c ∉ k)
    (hak : containsStr k a = false) (hz : containsStr k z = false) :
    Turns (replaceStr k v) (a ++ (k ++ z)) (a ++ (v ++ z)) := by
  intro r hr
  rw [List.append_assoc, List.append_assoc, replaceStr_skip, replaceStr_hit hne, replaceStr_turns hk hz r hr]
  · simp
  · intro u y t e h
    obtain ⟨x, hx⟩ := h
    rw [List.append_eq_append_iff] at hx
    rcases hx with ⟨b, h1, -⟩ | ⟨b, h1, -⟩
    · rw [containsStr_iff.2 ⟨u, b, by rw [e, h1]⟩] at hak; cases hak
    · have hl : a.getLast? = (y :: t).getLast? := by
        rw [e, List.getLast?_append, List.getLast?_cons]; rfl
      cases hc : (y :: t).getLast? with
      | none => simp at hc
      | some c =>
        refine ha c (by rw [hl, hc]; simp) ?_
        rw [h1]
        exact List.mem_append_left _ (List.mem_of_getLast? hc)

/-! ## The splitting of a document into blocks -/

/-- Text that can be a block: no empty line, no newline at its ends. -/
structure Chunk (t : Str) : Prop where
  ne : t ≠ []
  head : t.head? ≠ some '\n'
  last : t.getLast? ≠ some '\n'
  lines : ¬ t!"\n\n" <:+: t

def interleave : List (Str × Nat) → List Str
  | [] => [[]]
  | [(t, _)] => [t]
  | (t, k) :: p :: ps => t :: nls (k + 2) :: interleave (p :: ps)

theorem MULTI_shape : MULTI_ENDLINE_RE = .grp 1 (.seq (.seq (.set false [.chr '\n']) (.set false [.chr '\n']))
    (.star true (.set false [.chr '\n']))) := rfl

theorem MULTI_none {U : Uni} {pre rest : Str} (h : ¬ t!"\n\n" <+: rest) :
    MULTI_ENDLINE_RE.matchAt U ⟨pre, rest⟩ = none := by
  rw [Re.matchAt_none]
  cases hl : MULTI_ENDLINE_RE.all U ⟨pre, rest⟩ [] with
  | nil => rfl
  | cons p l =>
    exfalso
    obtain ⟨w, hw, lw⟩ := Re.all_lang MULTI_ENDLINE_RE ⟨pre, rest⟩ [] p (by rw [hl]; simp)
    rw [MULTI_shape, lang_grp] at lw
    simp only [lang_seq, lang_chr] at lw
    obtain ⟨_, v, rfl, ⟨_, _, rfl, rfl, rfl⟩, -⟩ := lw
    have e := hw.1
    simp only at e
    exact h ⟨v ++ p.1.rest, by rw [e]; rfl⟩

theorem MULTI_hit {U : Uni} {pre rest : Str} (k : Nat) (h : rest.head? ≠ some '\n') :
    MULTI_ENDLINE_RE.matchAt U ⟨pre, nls (k + 2) ++ rest⟩ =
      some (⟨(nls (k + 2)).reverse ++ pre, rest⟩, [(1, nls (k + 2))]) := by
  rw [Re.matchAt_eq, MULTI_shape]
  obtain ⟨l, hl⟩ := star_greedy_head (U := U) (n := false) (it := [.chr '\n']) (s := []) (w := nls k) (rest := rest)
    (pre := '\n' :: '\n' :: pre) (by intro x hx; rw [evalSet_chr]; simp [nls] at hx; simp [hx])
    (by
      intro x hx
      rw [evalSet_chr]
      cases rest with
      | nil => simp at hx
      | cons y rest => simp at h hx; subst hx; simpa using h)
  have h2 : (Re.seq (.seq (.set false [.chr '\n']) (.set false [.chr '\n'])) (.star true (.set false [.chr '\n']))).all U
      ⟨pre, nls (k + 2) ++ rest⟩ [] = (⟨(nls k).reverse ++ '\n' :: '\n' :: pre, rest⟩, []) :: l := by
    rw [all_seq, show nls (k + 2) ++ rest = '\n' :: '\n' :: (nls k ++ rest) from rfl, all_seq_set_cons,
      if_pos (by rw [evalSet_chr]; rfl), all_set_cons, if_pos (by rw [evalSet_chr]; rfl)]
    simpa using hl
  have h3 : (nls k).reverse ++ '\n' :: '\n' :: pre = (nls (k + 2)).reverse ++ pre := by
    have : ∀ k (t : Str), nls k ++ '\n' :: t = '\n' :: (nls k ++ t) := by
      intro k t
      induction k with
      | zero => rfl
      | succ k ih =>
        change '\n' :: (nls k ++ '\n' :: t) = _
        rw [ih]; rfl
    have hr : ∀ k, (nls k).reverse = nls k := fun k => List.reverse_replicate
    rw [hr, hr, this, this]; rfl
  rw [h3] at h2
  have ha : Adv ⟨pre, nls (k + 2) ++ rest⟩ (nls (k + 2)) ⟨(nls (k + 2)).reverse ++ pre, rest⟩ := ⟨rfl, rfl⟩
  simp only [Re.all] at h2 ⊢
  rw [h2]
  simp only [List.map_cons, List.head?_cons, ha.between]

theorem chunk_skips {U : Uni} {t : Str} (h : Chunk t) {r : Str} (pre : Str) : Skips U MULTI_ENDLINE_RE pre t r := by
  intro u x v e
  apply MULTI_none
  rintro ⟨z, hz⟩
  cases v with
  | nil =>
    simp at hz
    exact h.last (by rw [e, ← hz.1]; simp)
  | cons y v =>
    simp at hz
    obtain ⟨rfl, rfl, -⟩ := hz
    exact h.lines ⟨u, v, by rw [e]; simp⟩

theorem glue_head {ps : List (Str × Nat)} (h : ∀ p ∈ ps, Chunk p.1) : (glue ps).head? ≠ some '\n' := by
  cases ps with
  | nil => simp [glue]
  | cons p ps =>
    obtain ⟨t, k⟩ := p
    have ht := h (t, k) (by simp)
    have : (glue ((t, k) :: ps)).head? = t.head? := by
      cases ps with
      | nil => rfl
      | cons q ps =>
        rw [glue_cons (by simp)]
        cases t with
        | nil => exact absurd rfl ht.ne
        | cons => rfl
    rw [this]; exact ht.head

theorem split_segs {U : Uni} : ∀ {ps : List (Str × Nat)}, ps ≠ [] → (∀ p ∈ ps, Chunk p.1) → ∀ pre,
    ∃ ms tail, Segs U MULTI_ENDLINE_RE pre (glue ps) ms tail ∧
      (ms.flatMap (fun m => m.gap :: (List.range 1).map (fun i => m.grp (i + 1)))) ++ [tail] = interleave ps
  | [], h, _, _ => absurd rfl h
  | [(t, k)], _, h, pre => by
    refine ⟨[], t, Segs.done ?_, rfl⟩
    rw [Re.search_none_iff]
    rintro w c ⟨hc, hc'⟩
    have ht := h (t, k) (by simp)
    rcases c with ⟨cp, cr⟩
    simp only at hc hc'
    apply MULTI_none
    rintro ⟨z, hz⟩
    exact ht.lines ⟨w, z, by rw [← hz] at hc; simp [Spec.glue] at hc; rw [hc]; simp⟩
  | (t, k) :: p :: ps, _, h, pre => by
    obtain ⟨ms, tail, h1, h2⟩ := split_segs (U := U) (ps := p :: ps) (by simp)
      (fun q hq => h q (List.mem_cons_of_mem _ hq)) ((nls (k + 2)).reverse ++ (t.reverse ++ pre))
    refine ⟨⟨t, nls (k + 2), [(1, nls (k + 2))]⟩ :: ms, tail, ?_, ?_⟩
    · rw [glue_cons (by simp)]
      refine Segs.hit (chunk_skips (h (t, k) (by simp)) pre) (MULTI_hit k ?_) (by simp [nls]) h1
      exact glue_head (fun q hq => h q (List.mem_cons_of_mem _ hq))
    · rw [interleave, ← h2]
      rfl

/-- A document falls into its blocks. -/
theorem split_glue (U : Uni) {ps : List (Str × Nat)} (hne : ps ≠ []) (h : ∀ p ∈ ps, Chunk p.1) :
    MULTI_ENDLINE_RE.split U 1 (glue ps) = interleave ps := by
  obtain ⟨ms, tail, h1, h2⟩ := split_segs (U := U) hne h []
  unfold Re.split
  rw [Re.matches_of_Segs h1]
  exact h2

end Rustextile
