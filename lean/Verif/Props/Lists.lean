import Verif.ListDoc
import Verif.Instances

/-!
# Lists: C40, C41
-/

namespace Rustextile

open Prog

/-- **C40, part; C41, part.** Documents of paragraphs, headings, quotations and lists:
every list becomes nested `ul` and `ol` elements with an `li` for each item, as described by
`Spec.docHtml`.  In restricted mode this holds of the escaped document, which makes a
difference only for inline code and verbatim text.  Links lead where the URL parser says
(`Spec.Resolves`).  Lists are trees of items, of any depth and length; each list below an item
is of one kind; levels are not skipped.  Texts of items are ordinary text; of their
characters it is assumed (`Lowers`) that they are converted to lower case one by one, without
change of their length in UTF-8: where that is not so the code goes wrong
(`C40_negation_lower`). -/
theorem C40_documents_partial (E : Env) (hU : UniOk E.U) (fuel : Nat) (hf : 3 ≤ fuel) (cfg : Cfg) (base : Str)
    (hb : Spec.PlainBase base) (huid : cfg.uid = t!"textileRef:" ++ base ++ t!":")
    (hbt : cfg.blockTags = true) (hsan : cfg.sanitizer = none) (hdep : 1 ≤ cfg.maxSpanDepth)
    (ok : Char → Prop) (hL : Lowers E.U ok) (ha : ∀ c, c.toNat < 128 → ok c)
    (ds : List (Spec.Piece × Nat)) (hne : ds ≠ []) (hok : ∀ d ∈ ds, d.1.Ok E.U.isLu E.U.isNd cfg.lite)
    (hc : ∀ d ∈ ds, ∀ c ∈ d.1.itemChars, ok c)
    (hres : ∀ d ∈ ds, d.1.Resolved (Spec.Resolves E.urlParse E.urlJoin cfg.restricted) cfg.rel)
    (htok : ¬ cfg.uid <:+: Spec.docSource ds)
    (hn : Spec.docMarks ds < 2 ^ 31) :
    parseFresh E fuel cfg (Spec.docSource ds) =
      .ok (Spec.docHtml (if cfg.html5 then t!"<br>" else t!"<br />") (Spec.docSeen cfg.restricted ds)) :=
  parse_pieces (⟨hU, hf, hb, huid⟩ : DocCtx ⟨E, cfg, fuel⟩ base) hbt hsan hdep ha (fun _ _ _ _ _ => hL) hne hok hc hres htok (by omega)

theorem lists_nocolon {U : Uni} {k : Spec.ListKind} {t : Spec.Items} (h : t.Ok U.isLu) : ':' ∉ Spec.listSource k t := by
  obtain ⟨-, g2, -⟩ := items_ok (ok := fun _ => True) h (by simp)
  exact fun hc => Alpha.not_mem (by decide) (by decide) (source_over g2 _ hc)

/-! ## Balance -/

/-- The tags of a text are balanced, whatever is around it. -/
def Bal (h : Str) : Prop := ∀ st r, Spec.nested st (Spec.tagNames (h ++ r)) = Spec.nested st (Spec.tagNames r)

theorem tagNames_text : ∀ {w r : Str}, '<' ∉ w → Spec.tagNames (w ++ r) = Spec.tagNames r
  | [], r, _ => rfl
  | c :: w, r, h => by
    simp only [List.mem_cons, not_or] at h
    rw [List.cons_append, Spec.tagNames.eq_def]
    split
    · rename_i e; cases e
    · rename_i e; simp only [List.cons.injEq] at e; exact absurd e.1.symm h.1
    · rename_i e; simp only [List.cons.injEq] at e; exact absurd e.1.symm h.1
    · rename_i e; simp only [List.cons.injEq] at e; rw [← e.2]; exact tagNames_text h.2

theorem Bal.text {w : Str} (h : '<' ∉ w) : Bal w := fun st r => by rw [tagNames_text h]

theorem Bal.append {a b : Str} (ha : Bal a) (hb : Bal b) : Bal (a ++ b) := fun st r => by
  rw [List.append_assoc, ha, hb]

/-- Names of elements. -/
def TagName (n : Str) : Prop := n ≠ [] ∧ '<' ∉ n ∧ ∀ c ∈ n, Spec.tagNameEnd c = false

theorem takeWhile_name {n : Str} (h : ∀ c ∈ n, Spec.tagNameEnd c = false) {d : Char} {r : Str} (hd : Spec.tagNameEnd d = true) :
    (n ++ d :: r).takeWhile (fun c => !Spec.tagNameEnd c) = n := by
  induction n with
  | nil => simp [hd]
  | cons c n ih =>
    simp only [List.mem_cons, forall_eq_or_imp] at h
    simp [h.1, ih h.2]

theorem Bal.element {n a h : Str} (hn : TagName n) (ha : '<' ∉ a) (ha' : a = [] ∨ ∃ b, a = ' ' :: b) (hh : Bal h) :
    Bal (t!"<" ++ n ++ a ++ t!">" ++ h ++ t!"</" ++ n ++ t!">") := by
  intro st r
  obtain ⟨h1, h2, h3⟩ := hn
  have e : t!"<" ++ n ++ a ++ t!">" ++ h ++ t!"</" ++ n ++ t!">" ++ r =
      '<' :: (n ++ (a ++ '>' :: (h ++ ('<' :: '/' :: (n ++ '>' :: r))))) := by simp
  rw [e]
  have t1 : Spec.tagNames ('<' :: (n ++ (a ++ '>' :: (h ++ ('<' :: '/' :: (n ++ '>' :: r)))))) =
      (false, n) :: Spec.tagNames (h ++ ('<' :: '/' :: (n ++ '>' :: r))) := by
    rw [Spec.tagNames.eq_def]
    split
    · rename_i e; cases e
    · rename_i t e
      simp only [List.cons.injEq, true_and] at e
      cases n with
      | nil => exact absurd rfl h1
      | cons c n =>
        simp only [List.cons_append, List.cons.injEq] at e
        have := h3 c (by simp)
        rw [e.1] at this
        exact absurd this (by decide)
    · rename_i t _ e
      simp only [List.cons.injEq, true_and] at e
      rw [← e, List.cons.injEq]
      refine ⟨?_, ?_⟩
      · congr 1
        rcases ha' with rfl | ⟨b, rfl⟩
        · exact takeWhile_name h3 (by decide)
        · exact takeWhile_name h3 (by decide)
      · rw [tagNames_text h2, tagNames_text ha]
        exact tagNames_text (w := ['>']) (by decide)
    · rename_i h e
      exact (h (by simp only [List.cons.injEq] at e; exact e.1.symm)).elim
  have t2 : Spec.tagNames ('<' :: '/' :: (n ++ '>' :: r)) = (true, n) :: Spec.tagNames r := by
    rw [Spec.tagNames]
    rw [takeWhile_name h3 (by decide), tagNames_text h2]
    rw [show '>' :: r = ['>'] ++ r from rfl, tagNames_text (by decide)]
  rw [t1, Spec.nested, hh, t2, Spec.nested]
  simp

theorem Bal.balanced {h : Str} (hh : Bal h) : Spec.balanced h = true := by
  have := hh [] []
  rw [List.append_nil] at this
  unfold Spec.balanced
  rw [this]; rfl

theorem tabs_nolt (n : Nat) : '<' ∉ Spec.tabs n := by simp [Spec.tabs]

theorem around_closed {k : Spec.ListKind} {d n last : Nat} {x : Str} (hx : Bal x) : Bal (k.around d n last x) := by
  have e : k.around d n last x = Spec.tabs (d - 1) ++ (t!"<" ++ k.name ++ k.attr n ++ t!">" ++ (x ++ (t!"\n" ++ Spec.tabs (last - 1))) ++
      t!"</" ++ k.name ++ t!">") := by
    simp [Spec.ListKind.around]
  rw [e]
  refine (Bal.text (tabs_nolt _)).append (.element ?_ attr_nolt ?_ (hx.append (Bal.text ?_)))
  · unfold Spec.ListKind.name; split <;> exact ⟨by decide, by decide, by decide⟩
  · cases k
    · exact .inl rfl
    · exact .inl rfl
    · exact .inr ⟨_, rfl⟩
    · exact .inr ⟨_, rfl⟩
  · simp [tabs_nolt]

theorem items_closed : ∀ {t : Spec.Items} {o : Bool} {m : Str} {N : Spec.Numbers}, AllTexts (fun t => '<' ∉ t) t → Bal (t.html o m N).1
  | .done, _, _, _, _ => by simpa [Spec.Items.html] using Bal.text (w := []) (by simp)
  | .item a k sub next, o, m, N, h => by
    rw [Spec.Items.html]
    simp only
    refine Bal.append ?_ (items_closed h.2.2)
    rw [List.append_assoc, List.append_assoc, List.append_assoc, List.append_assoc]
    refine (Bal.text (by decide)).append ((Bal.text (tabs_nolt _)).append ?_)
    have := fun x hx => Bal.element (n := t!"li") (a := []) (h := x) ⟨by decide, by decide, by decide⟩ (by simp) (.inl rfl) hx
    split
    · have := this a (.text h.1)
      simpa using this
    · rename_i hs
      have := this (a ++ (t!"\n" ++ k.around (m.length + 1) ((k.start (m ++ [k.mark]) (if o then N.set m (N m + 1) else N)) (m ++ [k.mark]))
        (sub.lastDepth (m.length + 1) (m.length + 1))
        (sub.html k.ordered (m ++ [k.mark]) (k.start (m ++ [k.mark]) (if o then N.set m (N m + 1) else N))).1))
        ((Bal.text h.1).append ((Bal.text (by decide)).append (around_closed (items_closed h.2.1))))
      simpa [hs] using this

theorem list_closed {U : Uni} {k : Spec.ListKind} {t : Spec.Items} {N : Spec.Numbers} (h : t.Ok U.isLu) : Bal (Spec.listHtml k t N) :=
  around_closed (items_closed ((items_ok (ok := fun _ => True) h (by simp)).2.2.mono fun _ hw => (textA_none hw.1).1))

theorem glue_closed : ∀ {ps : List (Str × Nat)}, (∀ p ∈ ps, Bal p.1) → Bal (Spec.glue ps)
  | [], _ => Bal.text (by simp [Spec.glue])
  | [(t, k)], h => h (t, k) (by simp)
  | (t, k) :: q :: ps, h => by
    rw [glue_cons (by simp)]
    exact (h (t, k) (by simp)).append ((Bal.text (by simp [nls])).append (glue_closed (ps := q :: ps) (fun p hp => h p (List.mem_cons_of_mem _ hp))))

/-- **C40, part.** A document of lists, each as described above, gives balanced and
properly nested tags. -/
theorem C40_balanced_partial (E : Env) (hU : UniOk E.U) (fuel : Nat) (hf : 3 ≤ fuel) (cfg : Cfg) (base : Str)
    (hb : Spec.PlainBase base) (huid : cfg.uid = t!"textileRef:" ++ base ++ t!":")
    (hbt : cfg.blockTags = true) (hsan : cfg.sanitizer = none) (hdep : 1 ≤ cfg.maxSpanDepth) (hlite : cfg.lite = false)
    (ok : Char → Prop) (hL : Lowers E.U ok) (ha : ∀ c, c.toNat < 128 → ok c)
    (ls : List (Spec.ListKind × Spec.Items)) (hne : ls ≠ [])
    (hok : ∀ l ∈ ls, l.1.Ok ∧ l.2 ≠ .done ∧ l.2.Ok E.U.isLu ∧ ∀ c ∈ l.2.chars, ok c) :
    ∃ out, parseFresh E fuel cfg (Spec.join t!"\n\n" (ls.map (fun l => Spec.join t!"\n" (l.2.lines [l.1.mark] l.1.suffix)))) = .ok out ∧
      Spec.balanced out = true := by
  have h := C40_documents_partial E hU fuel hf cfg base hb huid hbt hsan hdep ok hL ha (ls.map (fun l => (.list l.1 l.2, 0)))
    (by simpa using hne) (by
      intro d hd
      obtain ⟨l, hl, rfl⟩ := List.mem_map.1 hd
      exact ⟨hlite, (hok l hl).1, (hok l hl).2.1, (hok l hl).2.2.1⟩) (by
      intro d hd
      obtain ⟨l, hl, rfl⟩ := List.mem_map.1 hd
      exact (hok l hl).2.2.2) (by
      intro d hd
      obtain ⟨l, -, rfl⟩ := List.mem_map.1 hd
      trivial) (no_token huid (by
      refine glue_nochar (by decide) ?_
      intro p hp
      obtain ⟨d, hd, rfl⟩ := List.mem_map.1 hp
      obtain ⟨l, hl, rfl⟩ := List.mem_map.1 hd
      exact lists_nocolon (hok l hl).2.2.1)) (by
      have : ∀ l : List (Spec.ListKind × Spec.Items), (l.map (fun _ => 0)).sum = 0 := by
        intro l; induction l with | nil => rfl | cons _ _ ih => simpa using ih
      simp [Spec.docMarks, Spec.Piece.marks, Function.comp_def, this])
  have e : Spec.docSource (ls.map (fun l => (.list l.1 l.2, 0))) =
      Spec.join t!"\n\n" (ls.map (fun l => Spec.join t!"\n" (l.2.lines [l.1.mark] l.1.suffix))) := by
    clear h hne hok
    unfold Spec.docSource
    induction ls with
    | nil => rfl
    | cons l ls ih =>
      cases ls with
      | nil => rfl
      | cons l' ls =>
        simp only [List.map_cons] at ih ⊢
        rw [glue_cons (by simp), join_cons (by simp), ih, List.append_assoc]
        rfl
  have e' : Spec.docSeen cfg.restricted (ls.map (fun l => (.list l.1 l.2, 0))) = ls.map (fun l => (.list l.1 l.2, 0)) := by
    unfold Spec.docSeen Spec.docEscaped
    split
    · simp [Spec.Piece.escaped, Function.comp_def]
    · rfl
  rw [e, e'] at h
  refine ⟨_, h, (glue_closed ?_).balanced⟩
  obtain ⟨es, h1, -, h3⟩ := doc_threaded (if cfg.html5 then t!"<br>" else t!"<br />") (ls.map (fun l => (.list l.1 l.2, 0))) (fun _ => 1)
  rw [h3]
  intro p hp
  obtain ⟨x, hx, rfl⟩ := List.mem_map.1 hp
  obtain ⟨l, hl, e⟩ := List.mem_map.1 (h1 x hx)
  rw [← e]
  exact list_closed (hok l hl).2.2.1

/-! ## Numbers -/

theorem html_numbers : ∀ {t : Spec.Items} {o : Bool} {m : Str} {N : Spec.Numbers} {x : Str}, x.length ≤ m.length →
    (t.html o m N).2 x = if x = m ∧ o = true then N x + t.count else N x
  | .done, o, m, N, x, _ => by simp [Spec.Items.html, Spec.Items.count]
  | .item a k sub next, o, m, N, x, hx => by
    rw [Spec.Items.html]
    simp only
    rw [html_numbers hx, html_numbers (t := sub) (by simp; omega)]
    have hne : x ≠ m ++ [k.mark] := by rintro rfl; simp at hx; omega
    have hs : ∀ N : Spec.Numbers, k.start (m ++ [k.mark]) N x = N x := by
      intro N; cases k <;> simp [Spec.ListKind.start, Spec.Numbers.set, hne]
    simp only [hne, false_and, if_false]
    have hi : (if sub.isDone = true then if o = true then N.set m (N m + 1) else N
        else k.start (m ++ [k.mark]) (if o = true then N.set m (N m + 1) else N)) x = (if o = true then N.set m (N m + 1) else N) x := by
      split
      · rfl
      · exact hs _
    rw [hi]
    by_cases h1 : x = m
    · subst h1
      cases o
      · simp
      · simp [Spec.Numbers.set, Spec.Items.count]; omega
    · simp only [h1, false_and, if_false]
      cases o
      · simp
      · simp [Spec.Numbers.set, h1]

theorem piece_numbers {p : Spec.Piece} (h : p.numbered = false) (N : Spec.Numbers) : p.numbers N t!"#" = N t!"#" := by
  cases p with
  | rich b => rfl
  | list k t =>
    have hk : k = .bullets := by
      cases k
      · rfl
      all_goals exact Bool.noConfusion h
    subst hk
    simp only [Spec.Piece.numbers, Spec.listNumbers]
    rw [html_numbers (by simp)]
    simp [Spec.ListKind.ordered, Spec.ListKind.start]

theorem list_numbers {k : Spec.ListKind} {t : Spec.Items} (hk : k.ordered = true) (N : Spec.Numbers) :
    Spec.listNumbers k t N t!"#" = k.start t!"#" N t!"#" + t.count := by
  have hm : k.mark = '#' := by simp [Spec.ListKind.mark, hk]
  unfold Spec.listNumbers
  rw [hm, html_numbers (by simp), hk]
  simp

theorem pieceHtml_append {br : Str} : ∀ {a b : List (Spec.Piece × Nat)} {N : Spec.Numbers},
    Spec.pieceHtml br N (a ++ b) = Spec.pieceHtml br N a ++ Spec.pieceHtml br (a.foldl (fun N d => d.1.numbers N) N) b
  | [], b, N => rfl
  | d :: a, b, N => by simp [Spec.pieceHtml, pieceHtml_append (a := a)]

theorem pieceHtml_length {br : Str} : ∀ {a : List (Spec.Piece × Nat)} {N : Spec.Numbers}, (Spec.pieceHtml br N a).length = a.length
  | [], N => rfl
  | d :: a, N => by simp [Spec.pieceHtml, pieceHtml_length (a := a)]

theorem between_numbers : ∀ {a : List (Spec.Piece × Nat)} {N : Spec.Numbers}, (∀ d ∈ a, d.1.numbered = false) →
    a.foldl (fun N d => d.1.numbers N) N t!"#" = N t!"#"
  | [], N, _ => rfl
  | d :: a, N, h => by
    rw [List.foldl_cons, between_numbers (a := a) (fun d hd => h d (List.mem_cons_of_mem _ hd)), piece_numbers (h d (by simp))]

theorem listHtml_attr {k : Spec.ListKind} {t : Spec.Items} {N : Spec.Numbers} (hk : k.ordered = true) :
    ∃ x, Spec.listHtml k t N = t!"<ol" ++ k.attr (k.start t!"#" N t!"#") ++ t!">" ++ x ++ t!"</ol>" := by
  have hm : k.mark = '#' := by simp [Spec.ListKind.mark, hk]
  have hn : k.name = t!"ol" := by simp [Spec.ListKind.name, hk]
  refine ⟨(t.html k.ordered t!"#" (k.start t!"#" N)).1 ++ t!"\n" ++ Spec.tabs (t.lastDepth 1 1 - 1), ?_⟩
  simp [Spec.listHtml, Spec.ListKind.around, hm, hn, Spec.tabs]

/-- **C41, part.** In a document as in `C40_documents_partial`, with a numbered list `k`, `t`
somewhere, starting anew or from a given number; then blocks `ds2` that are not numbered lists
(they may be lists of bullets with numbered lists in them); then a list `u` that goes on: the
first list becomes an `ol` element, with `start="n"` if the number `n` was given; and the
second has `start` the number after that of the last item of the first.  Blocks become as many
pieces of HTML, so these elements are at the places of the lists.

Missing: that items are ordinary text, and that levels are not skipped. -/
theorem C41_numbers_partial (E : Env) (hU : UniOk E.U) (fuel : Nat) (hf : 3 ≤ fuel) (cfg : Cfg) (base : Str)
    (hb : Spec.PlainBase base) (huid : cfg.uid = t!"textileRef:" ++ base ++ t!":")
    (hbt : cfg.blockTags = true) (hsan : cfg.sanitizer = none) (hdep : 1 ≤ cfg.maxSpanDepth)
    (ok : Char → Prop) (hL : Lowers E.U ok) (ha : ∀ c, c.toNat < 128 → ok c)
    (ds1 ds2 ds3 : List (Spec.Piece × Nat)) (k : Spec.ListKind) (t u : Spec.Items) (i j : Nat)
    (hk : k = .numbers ∨ ∃ n, k = .numbersFrom n) (h2 : ∀ d ∈ ds2, d.1.numbered = false)
    (hok : ∀ d ∈ ds1 ++ (.list k t, i) :: (ds2 ++ (.list .numbersOn u, j) :: ds3), d.1.Ok E.U.isLu E.U.isNd cfg.lite)
    (hc : ∀ d ∈ ds1 ++ (.list k t, i) :: (ds2 ++ (.list .numbersOn u, j) :: ds3), ∀ c ∈ d.1.itemChars, ok c)
    (hres : ∀ d ∈ ds1 ++ (.list k t, i) :: (ds2 ++ (.list .numbersOn u, j) :: ds3), d.1.Resolved (Spec.Resolves E.urlParse E.urlJoin cfg.restricted) cfg.rel)
    (htok : ¬ cfg.uid <:+: Spec.docSource (ds1 ++ (.list k t, i) :: (ds2 ++ (.list .numbersOn u, j) :: ds3)))
    (hn : Spec.docMarks (ds1 ++ (.list k t, i) :: (ds2 ++ (.list .numbersOn u, j) :: ds3)) < 2 ^ 31) :
    ∃ hs1 hs2 hs3 x y, hs1.length = ds1.length ∧ hs2.length = ds2.length ∧ hs3.length = ds3.length ∧
      parseFresh E fuel cfg (Spec.docSource (ds1 ++ (.list k t, i) :: (ds2 ++ (.list .numbersOn u, j) :: ds3))) =
        .ok (Spec.glue (hs1 ++ (t!"<ol" ++ k.attr k.first ++ t!">" ++ x ++ t!"</ol>", i) ::
          (hs2 ++ (t!"<ol start=\"" ++ Spec.numeral (k.first + t.count) ++ t!"\">" ++ y ++ t!"</ol>", j) :: hs3))) := by
  have h := C40_documents_partial E hU fuel hf cfg base hb huid hbt hsan hdep ok hL ha _ (by simp) hok hc hres htok hn
  have hse : Spec.docSeen cfg.restricted (ds1 ++ (.list k t, i) :: (ds2 ++ (.list .numbersOn u, j) :: ds3)) =
      Spec.docSeen cfg.restricted ds1 ++ (.list k t, i) :: (Spec.docSeen cfg.restricted ds2 ++ (.list .numbersOn u, j) ::
        Spec.docSeen cfg.restricted ds3) := by
    unfold Spec.docSeen Spec.docEscaped
    split <;> simp [Spec.Piece.escaped]
  have hlen : ∀ ds, (Spec.docSeen cfg.restricted ds).length = ds.length := by
    intro ds; unfold Spec.docSeen Spec.docEscaped; split <;> simp
  have h2 : ∀ d ∈ Spec.docSeen cfg.restricted ds2, d.1.numbered = false := by
    unfold Spec.docSeen Spec.docEscaped
    split
    · intro d hd
      obtain ⟨e, he, rfl⟩ := List.mem_map.1 hd
      have := h2 e he
      cases e' : e.1 <;> simp [e', Spec.Piece.escaped, Spec.Piece.numbered] at this ⊢
      exact this
    · exact h2
  rw [hse] at h
  rw [← hlen ds1, ← hlen ds2, ← hlen ds3]
  generalize Spec.docSeen cfg.restricted ds1 = ds1' at *
  generalize Spec.docSeen cfg.restricted ds2 = ds2' at *
  generalize Spec.docSeen cfg.restricted ds3 = ds3' at *
  have ho : k.ordered = true := by rcases hk with rfl | ⟨n, rfl⟩ <;> rfl
  have hs : ∀ N : Spec.Numbers, k.start t!"#" N t!"#" = k.first := by
    intro N; rcases hk with rfl | ⟨n, rfl⟩ <;> simp [Spec.ListKind.start, Spec.ListKind.first, Spec.Numbers.set]
  let N1 : Spec.Numbers := ds1'.foldl (fun N d => d.1.numbers N) (fun _ => 1)
  let N2 : Spec.Numbers := ds2'.foldl (fun N d => d.1.numbers N) (Spec.listNumbers k t N1)
  obtain ⟨x, hx⟩ := listHtml_attr (t := t) (N := N1) ho
  obtain ⟨y, hy⟩ := listHtml_attr (k := .numbersOn) (t := u) (N := N2) rfl
  have e2 : N2 t!"#" = k.first + t.count := by
    show (ds2'.foldl (fun N d => d.1.numbers N) (Spec.listNumbers k t N1) : Spec.Numbers) t!"#" = _
    rw [between_numbers h2, list_numbers ho, hs]
  refine ⟨Spec.pieceHtml (if cfg.html5 then t!"<br>" else t!"<br />") (fun _ => 1) ds1',
    Spec.pieceHtml (if cfg.html5 then t!"<br>" else t!"<br />") (Spec.listNumbers k t N1) ds2',
    Spec.pieceHtml (if cfg.html5 then t!"<br>" else t!"<br />") (Spec.listNumbers .numbersOn u N2) ds3', x, y,
    pieceHtml_length, pieceHtml_length, pieceHtml_length, ?_⟩
  rw [h]
  unfold Spec.docHtml
  rw [pieceHtml_append, Spec.pieceHtml, pieceHtml_append, Spec.pieceHtml]
  have ex : Spec.Piece.html (if cfg.html5 then t!"<br>" else t!"<br />") N1 (.list k t) = t!"<ol" ++ k.attr k.first ++ t!">" ++ x ++ t!"</ol>" := by
    rw [← hs N1]; exact hx
  have ey : Spec.Piece.html (if cfg.html5 then t!"<br>" else t!"<br />") N2 (.list .numbersOn u) =
      t!"<ol start=\"" ++ Spec.numeral (k.first + t.count) ++ t!"\">" ++ y ++ t!"</ol>" := by
    rw [← e2]
    show Spec.listHtml .numbersOn u N2 = _
    rw [hy]
    simp [Spec.ListKind.attr, Spec.ListKind.start]
  rw [← ex, ← ey]
  rfl

/-! ## ASCII -/

theorem lowers_ascii {U : Uni} (h : ∀ t : Str, (∀ c ∈ t, c.toNat < 128) → U.toLower t = t.map Spec.lower) :
    Lowers U (fun c => c.toNat < 128) :=
  ⟨Spec.lower, fun t ht => ⟨h t ht, fun c hc => lowerOk_ascii (ht c hc)⟩⟩

theorem demo_lowers : Lowers demoEnv.U (fun c => c.toNat < 128) :=
  lowers_ascii (fun t ht => by
    show demoUni.toLower t = _
    unfold demoUni
    apply List.map_congr_left
    intro c hc
    simp [Spec.lower, isUp])

/-- Examples of `C40_documents_partial`: a document with nested lists of all kinds. -/
def exampleDoc : List (Spec.Piece × Nat) := [
  (.list (.numbersFrom 7) (.item t!"one" .bullets (.item t!"a" .numbers (.item t!"deep" .bullets .done .done) (.item t!"b" .bullets .done .done))
    (.item t!"two" .bullets .done .done)), 0),
  (.list .bullets (.item t!"dot" .numbers (.item t!"x" .bullets .done .done) .done), 1),
  (.list .numbersOn (.item t!"three" .bullets .done .done), 0)]

theorem itemText_of_B {t : Str} (h : wordsB demoUni.isLu t = true) (h1 : t.head?.any (· != ' ') = true) (h2 : t.getLast?.any (· != ' ') = true) :
    Spec.ItemText demoUni.isLu t := by
  refine { toWords := words_of_B h, first := ?_, last := ?_ }
  · cases t with
    | nil => simp at h1
    | cons c u => exact ⟨c, u, rfl, by simpa using h1⟩
  · rcases List.eq_nil_or_concat t with rfl | ⟨u, c, rfl⟩
    · simp at h2
    · exact ⟨u, c, by simp, by simpa using h2⟩

theorem exampleDoc_ok : ∀ d ∈ exampleDoc, d.1.Ok demoUni.isLu demoUni.isNd false := by
  have h : ∀ t ∈ [t!"one", t!"a", t!"deep", t!"b", t!"two", t!"dot", t!"x", t!"three"], Spec.ItemText demoUni.isLu t := by
    intro t ht
    exact itemText_of_B ((by decide +kernel : ∀ t ∈ [t!"one", t!"a", t!"deep", t!"b", t!"two", t!"dot", t!"x", t!"three"], wordsB demoUni.isLu t = true) t ht)
      ((by decide +kernel : ∀ t ∈ [t!"one", t!"a", t!"deep", t!"b", t!"two", t!"dot", t!"x", t!"three"], t.head?.any (· != ' ') = true) t ht)
      ((by decide +kernel : ∀ t ∈ [t!"one", t!"a", t!"deep", t!"b", t!"two", t!"dot", t!"x", t!"three"], t.getLast?.any (· != ' ') = true) t ht)
  simp only [List.mem_cons, forall_eq_or_imp, List.not_mem_nil, false_imp_iff, implies_true, and_true] at h
  simp only [exampleDoc, List.mem_cons, forall_eq_or_imp, List.not_mem_nil, false_imp_iff, implies_true, and_true,
    Spec.Piece.Ok, Spec.Items.Ok, Spec.ListKind.Ok, true_and]
  simp [h]

theorem exampleDoc_resolved {R : Str → Str → Prop} {rel : Option Str} : ∀ d ∈ exampleDoc, d.1.Resolved R rel := by
  simp [exampleDoc, Spec.Piece.Resolved]

example : parseFresh demoEnv 3 demoCfg t!"#7 one\n#* a\n#*# deep\n#* b\n# two\n\n* dot\n*# x\n\n\n#_ three" = .ok
    (t!"<ol start=\"7\">\n\t<li>one\n\t<ul>\n\t\t<li>a\n\t\t<ol>\n\t\t\t<li>deep</li>\n\t\t</ol></li>\n\t\t<li>b</li>\n\t</ul></li>\n\t<li>two</li>\n</ol>" ++
     t!"\n\n<ul>\n\t<li>dot\n\t<ol>\n\t\t<li>x</li>\n\t</ol></li>\n\t</ul>\n\n\n<ol start=\"9\">\n\t<li>three</li>\n</ol>") :=
  (C40_documents_partial demoEnv UniOk.demo 3 (by decide) demoCfg t!"abc" plainBase_demo rfl rfl rfl (by decide)
    _ demo_lowers (fun _ h => h) exampleDoc (by simp [exampleDoc]) exampleDoc_ok (by decide +kernel) exampleDoc_resolved (no_token rfl (by decide +kernel)) (by decide +kernel)).trans (by decide +kernel)

/-- The same document, for `C41_numbers_partial`: a list of two items from 7, one of bullets
with a numbered one in it, and one that goes on with 9. -/
example : ∃ hs1 hs2 hs3 x y, hs1.length = 0 ∧ hs2.length = 1 ∧ hs3.length = 0 ∧
    parseFresh demoEnv 3 demoCfg (Spec.docSource exampleDoc) = .ok (Spec.glue (hs1 ++ (t!"<ol start=\"7\">" ++ x ++ t!"</ol>", 0) ::
      (hs2 ++ (t!"<ol start=\"9\">" ++ y ++ t!"</ol>", 0) :: hs3))) :=
  C41_numbers_partial demoEnv UniOk.demo 3 (by decide) demoCfg t!"abc" plainBase_demo rfl rfl rfl (by decide)
    _ demo_lowers (fun _ h => h) [] [_] [] (.numbersFrom 7) _ _ 0 0 (.inr ⟨7, rfl⟩) (by simp [Spec.Piece.numbered, Spec.ListKind.ordered])
    exampleDoc_ok (by decide +kernel) exampleDoc_resolved (no_token rfl (by decide +kernel)) (by decide +kernel)

example : ∃ out, parseFresh demoEnv 3 demoCfg t!"# one\n#* a\n#*# deep\n# b\n\n* dot" = .ok out ∧ Spec.balanced out = true :=
  C40_balanced_partial demoEnv UniOk.demo 3 (by decide) demoCfg t!"abc" plainBase_demo rfl rfl rfl (by decide) rfl
    _ demo_lowers (fun _ h => h)
    [(.numbers, .item t!"one" .bullets (.item t!"a" .numbers (.item t!"deep" .bullets .done .done) .done) (.item t!"b" .bullets .done .done)),
     (.bullets, .item t!"dot" .bullets .done .done)] (by simp) (by
      have h : ∀ t ∈ [t!"one", t!"a", t!"deep", t!"b", t!"dot"], Spec.ItemText demoUni.isLu t := by
        intro t ht
        exact itemText_of_B ((by decide +kernel : ∀ t ∈ [t!"one", t!"a", t!"deep", t!"b", t!"dot"], wordsB demoUni.isLu t = true) t ht)
          ((by decide +kernel : ∀ t ∈ [t!"one", t!"a", t!"deep", t!"b", t!"dot"], t.head?.any (· != ' ') = true) t ht)
          ((by decide +kernel : ∀ t ∈ [t!"one", t!"a", t!"deep", t!"b", t!"dot"], t.getLast?.any (· != ' ') = true) t ht)
      simp only [List.mem_cons, forall_eq_or_imp, List.not_mem_nil, false_imp_iff, implies_true, and_true] at h
      simp only [List.mem_cons, forall_eq_or_imp, List.not_mem_nil, false_imp_iff, implies_true, and_true,
        Spec.Items.Ok, Spec.ListKind.Ok, true_and]
      refine ⟨⟨by simp, ⟨h.1, ⟨h.2.1, h.2.2.1⟩, h.2.2.2.1⟩, by decide +kernel⟩, by simp, h.2.2.2.2, by decide +kernel⟩)

/-! ## Where it is not so -/

/-- **C41, negation.** A number that is too large is ignored, silently: the list starts with
the number 1. -/
theorem C41_negation : parseFresh demoEnv 100 demoCfg t!"#99999999999999999999 a" =
    .ok t!"<ol start=\"1\">\n\t<li>a</li>\n</ol>" := by decide +kernel

/-- Character classes with the Kelvin sign (U+212A), an upper case letter whose lower case
is the ASCII letter `k`. -/
def kelvinUni : Uni := { demoUni with
  isWord := fun c => demoUni.isWord c || c == Char.ofNat 0x212A
  isL := fun c => demoUni.isL c || c == Char.ofNat 0x212A
  isLu := fun c => demoUni.isLu c || c == Char.ofNat 0x212A
  isAlnum := fun c => demoUni.isAlnum c || c == Char.ofNat 0x212A
  toLower := fun s => demoUni.toLower (s.map (fun c => if c == Char.ofNat 0x212A then 'k' else c)) }

/-- **C40, negation: a panic**, if the lower case of a character in an item has another
length: parser.rs:1028-1033 takes parts of the text at positions found in its lower case. -/
theorem C40_negation_lower : parseFresh { demoEnv with U := kelvinUni } 100 demoCfg (t!"* 5 " ++ [Char.ofNat 0x212A] ++ t!"\n** foo") =
    .error (.panic t!"byte index is not a char boundary") := by decide +kernel

end Rustextile
