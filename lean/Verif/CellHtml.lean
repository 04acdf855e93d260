import Verif.CellRows
import Verif.TableDoc
import Verif.SignRun

/-!
# The HTML of tables with attributes
-/

namespace Rustextile

open Prog

/-! ## Attributes -/

def hWsA : Alpha := ⟨asciiAlnum ++ t!" ,./$\n\t", true⟩

/-- Reads the HTML of tables. -/
def hM : Auto := [
  (true, [(hWsA, 0), (oneA '<', 1)]),
  (true, [(⟨asciiAlnum ++ t!"/", false⟩, 1), (oneA ' ', 2), (oneA '>', 0)]),
  (true, [(nameA, 2), (oneA '=', 3)]),
  (true, [(oneA '"', 4), (oneA '"', 8)]),
  (true, [(nameA, 5), (oneA ' ', 4), (oneA ';', 4), (oneA '"', 7)]),
  (true, [(nameA, 5), (oneA '-', 6), (⟨t!" :;", false⟩, 4), (oneA '"', 7)]),
  (true, [(nameA, 5)]),
  (true, [(oneA ' ', 2), (oneA '>', 0)]),
  (true, [(plainA, 8), (oneA '"', 7)])]

set_option maxRecDepth 100000 in
theorem hM_ok : hM.wf = true ∧ ([RCLIST_RE, LISTS_RE, FOOTNOTE_RE, NOTEREF_RE] ++ spanPatterns).all (hM.avoids ·) = true := by decide +kernel

/-- No colon after an `f`. -/
def NoFc (b : Str) : Prop := ∀ u v, b = u ++ ':' :: v → u.getLast? ≠ some 'f'

theorem NoFc.infix {b : Str} (h : NoFc b) : ¬ ['f', ':'] <:+: b := by
  rintro ⟨s, t, e⟩
  refine h (s ++ ['f']) t (by rw [← e]; simp) ?_
  exact List.getLast?_concat ..

theorem NoFc.none {b : Str} (h : ':' ∉ b) : NoFc b := by
  rintro u v rfl
  simp at h

theorem NoFc.append {a b : Str} (ha : NoFc a) (hb : NoFc b) (h0 : b.head? ≠ some ':') : NoFc (a ++ b) := by
  intro u v e
  rcases List.append_eq_append_iff.1 e with ⟨x, e1, e2⟩ | ⟨x, e1, e2⟩
  · cases x with
    | nil => rw [e2] at h0; simp at h0
    | cons y x =>
      have := hb _ _ e2
      rw [e1, getLast_append_ne (by simp)]
      exact this
  · cases x with
    | nil => rw [List.nil_append] at e2; rw [← e2] at h0; simp at h0
    | cons y x =>
      simp at e2
      exact ha u x (by rw [e1, e2.1])

/-- Attributes as they stand in a tag. -/
structure AttOk (A : Str) : Prop where
  lt : '<' ∉ A
  gt : '>' ∉ A
  nl : '\n' ∉ A
  fc : NoFc A
  head : A = [] ∨ A.head? = some ' '
  run : ∀ t, hM.Run 7 t → hM.Run 7 (A ++ t)

theorem AttOk.nil : AttOk [] := ⟨by simp, by simp, by simp, .none (by simp), .inl rfl, fun _ h => h⟩

theorem AttOk.append {A B : Str} (hA : AttOk A) (hB : AttOk B) : AttOk (A ++ B) where
  lt := by simp [hA.lt, hB.lt]
  gt := by simp [hA.gt, hB.gt]
  nl := by simp [hA.nl, hB.nl]
  fc := hA.fc.append hB.fc (by rcases hB.head with h | h <;> rw [h] <;> simp)
  head := by
    rcases hA.head with h | h
    · rw [h]; exact hB.head
    · right
      cases A with
      | nil => cases h
      | cons => exact h
  run := by
    intro t ht
    rw [List.append_assoc]
    exact hA.run _ (hB.run t ht)

/-- A value that can stand in quotes. -/
structure ValOk (v : Str) : Prop where
  chars : '<' ∉ v ∧ '>' ∉ v ∧ '\n' ∉ v
  fc : NoFc v
  head : v.head? ≠ some ':'
  run : ∀ t, hM.Run 7 t → hM.Run 3 ('"' :: (v ++ '"' :: t))

theorem ValOk.att {n v : Str} (hn : ∀ c ∈ n, c ∈ asciiAlnum) (h : ValOk v) : AttOk (Spec.attr n (some v)) := by
  have h0 : ∀ c, c ∉ asciiAlnum → c ∉ n := fun c hc hm => hc (hn c hm)
  obtain ⟨h1, h2, h3⟩ := h.chars
  have hv : Spec.attr n (some v) = (' ' :: (n ++ ['=', '"'])) ++ (v ++ ['"']) := by simp [Spec.attr]
  refine ⟨?_, ?_, ?_, ?_, .inr rfl, ?_⟩
  · simp [Spec.attr, h1, h0 '<' (by decide)]
  · simp [Spec.attr, h2, h0 '>' (by decide)]
  · simp [Spec.attr, h3, h0 '\n' (by decide)]
  · rw [hv]
    refine .append (.none (by simp [h0 ':' (by decide)])) (.append h.fc (.none (by simp)) (by simp)) ?_
    have := h.head
    cases v with
    | nil => simp
    | cons => simpa using this
  · intro t ht
    have e : Spec.attr n (some v) ++ t = ' ' :: (n ++ '=' :: '"' :: (v ++ '"' :: t)) := by simp [Spec.attr]
    rw [e]
    refine run_one (q' := 2) (by simp [hM, Auto.step]) (run_loop (A := nameA) (by simp [hM, Auto.step]) ?_ (fun c hc => .inl (hn c hc)))
    exact run_one (q' := 3) (by simp [hM, Auto.step]) (h.run t ht)

theorem opt_att {n : Str} {o : Option Str} (hn : ∀ c ∈ n, c ∈ asciiAlnum) (h : ∀ v, o = some v → ValOk v) : AttOk (Spec.attr n o) := by
  cases o with
  | none => exact .nil
  | some v => exact (h v rfl).att hn

theorem word_run {t : Str} (ht : hM.Run 7 t) : ∀ {v : Str}, WordAtt v → hM.Run 4 (v ++ '"' :: t) ∧ hM.Run 5 (v ++ '"' :: t)
  | [], _ => ⟨run_one (q' := 7) (by simp [hM, Auto.step]) ht, run_one (q' := 7) (by simp [hM, Auto.step]) ht⟩
  | c :: v, h => by
    obtain ⟨h4, h5⟩ := word_run ht (v := v) (fun c hc => h c (by simp [hc]))
    have hc := h c (by simp)
    rw [List.mem_append] at hc
    rcases hc with hc | hc
    · exact ⟨⟨(nameA, 5), by simp [hM, Auto.step], .inl hc, h5⟩, ⟨(nameA, 5), by simp [hM, Auto.step], .inl hc, h5⟩⟩
    · rw [List.mem_singleton.1 hc]
      exact ⟨run_one (q' := 4) (by simp [hM, Auto.step]) h4, ⟨(⟨t!" :;", false⟩, 4), by simp [hM, Auto.step], .inl (by decide), h4⟩⟩

theorem word_val {v : Str} (h : WordAtt v) : ValOk v := by
  have h0 : ∀ c, c ∉ asciiAlnum ++ t!" " → c ∉ v := fun c hc hm => hc (h c hm)
  refine ⟨⟨h0 _ (by decide), h0 _ (by decide), h0 _ (by decide)⟩, .none (h0 _ (by decide)), ?_, fun t ht => ?_⟩
  · intro e
    exact h0 ':' (by decide) (List.mem_of_head? e)
  · exact run_one (q' := 4) (by simp [hM, Auto.step]) (word_run ht h).1

theorem natStr_word {n : Nat} : WordAtt (natStr n) := fun c hc => (by decide +kernel : ∀ c ∈ t!"0123456789", c ∈ asciiAlnum ++ t!" ") c (natStr_mem hc)

def fcB : Str → Bool
  | 'f' :: ':' :: _ => false
  | _ :: t => fcB t
  | [] => true

theorem fcB_ok : ∀ {b : Str}, fcB b = true → NoFc b
  | [], _ => .none (by simp)
  | c :: b, h => by
    intro u v e
    cases u with
    | nil => simp
    | cons x u =>
      simp at e
      obtain ⟨rfl, e⟩ := e
      cases u with
      | nil =>
        rw [List.nil_append] at e
        subst e
        intro hx
        simp at hx
        subst hx
        simp [fcB] at h
      | cons y u =>
        have h' : fcB b = true := by
          unfold fcB at h
          split at h
          · cases h
          · rename_i heq
            simp at heq
            rw [heq.2]; exact h
          · rename_i heq; cases heq
        have := fcB_ok h' _ _ e
        simpa using this

theorem style_val {x : Option Spec.VAlign} (hx : x ∈ allV) {y : Option Spec.Align} (hy : y ∈ allA) : ValOk (styleText x y) := by
  have h := (by decide +kernel : ∀ x ∈ allV, ∀ y ∈ allA, '<' ∉ styleText x y ∧ '>' ∉ styleText x y ∧ '\n' ∉ styleText x y ∧ fcB (styleText x y) = true ∧
    (styleText x y).head? ≠ some ':' ∧ readB hM 3 ('"' :: (styleText x y ++ ['"'])) 7 = true) x hx y hy
  obtain ⟨h1, h2, h3, h4, h5, h6⟩ := h
  refine ⟨⟨h1, h2, h3⟩, fcB_ok h4, h5, fun t ht => ?_⟩
  have := readB_run ht h6
  simpa using this

theorem look_att {r : Bool} {k : Spec.Look} (h : k.Ok r) (v : Bool) (cols rows : Option Nat) : AttOk (k.html r v cols rows) := by
  obtain ⟨sv, e, hs⟩ := look_html_eq r v cols rows k
  obtain ⟨h1, h2, h3⟩ := look_cls_words h
  have hn : ∀ o : Option Nat, ∀ v, o.map natStr = some v → ValOk v := by
    intro o v hv
    cases o with
    | none => cases hv
    | some n => simp at hv; subst hv; exact word_val natStr_word
  rw [e]
  refine .append (opt_att (by decide) ?_) (.append (opt_att (by decide) (hn cols)) (.append (opt_att (by decide) ?_) (.append (opt_att (by decide) ?_)
    (.append (opt_att (by decide) (hn rows)) (opt_att (by decide) ?_)))))
  · intro v hv
    split at hv
    · cases hv
    · exact word_val (h1 v hv)
  · intro v hv
    split at hv
    · cases hv
    · exact word_val (h2 v hv)
  · exact fun v hv => word_val (h3 v hv)
  · intro v hv
    rcases hs with rfl | ⟨x, hx, y, hy, rfl⟩
    · cases hv
    · cases hv; exact style_val hx hy

theorem summary_val {s : Str} (h : ∀ c ∈ s, Spec.ordinaryChar c = true) : ValOk s := by
  have h0 : ∀ c, Spec.ordinaryChar c = false → c ∉ s := fun c hc hm => by rw [h c hm] at hc; cases hc
  refine ⟨⟨h0 _ (by decide), h0 _ (by decide), h0 _ (by decide)⟩, .none (h0 _ (by decide)), ?_, fun t ht => ?_⟩
  · intro e
    exact h0 ':' (by decide) (List.mem_of_head? e)
  · refine run_one (q' := 8) (by simp [hM, Auto.step]) (run_loop (A := plainA) (by simp [hM, Auto.step]) ?_ (fun c hc => plainA_iff.2 (h c hc)))
    exact run_one (q' := 7) (by simp [hM, Auto.step]) ht

theorem tatts_ok {U : Uni} {r : Bool} {t : Spec.TTable} (h : t.Ok U.isLu r) : AttOk (t.atts r) := by
  unfold Spec.TTable.atts
  cases hh : t.head with
  | none => exact .nil
  | some m =>
    obtain ⟨h1, h2⟩ := h.head m hh
    refine .append (look_att h1 _ _ _) (opt_att (by decide) ?_)
    intro v hv
    split at hv
    · cases hv
    · cases hv; exact summary_val h2.words.chars

/-! ## Tags and texts -/

/-- Properties of HTML: `Q1` for what starts with a tag. -/
structure Frame (U : Uni) (Q0 Q1 : Str → Prop) : Prop where
  text : ∀ w r, Plainly U w → (∀ c ∈ w, hWsA.Mem c) → Q1 r → Q0 (w ++ r)
  ws : ∀ c r, c ∈ ['\n', '\t'] → Q0 r → Q0 (c :: r)
  tag : ∀ x b A r, x ∈ t!"tcd/" → (∀ c ∈ b, c ∈ asciiAlnum) → AttOk A → Q0 r → Q1 ('<' :: x :: (b ++ (A ++ '>' :: r)))

section
variable {U : Uni} {Q0 Q1 : Str → Prop}

theorem Frame.wss (F : Frame U Q0 Q1) {r : Str} (hr : Q0 r) : ∀ {w : Str}, (∀ c ∈ w, c ∈ ['\n', '\t']) → Q0 (w ++ r)
  | [], _ => hr
  | c :: _, h => F.ws c _ (h c (by simp)) (F.wss hr (fun c hc => h c (by simp [hc])))

theorem Frame.elem (F : Frame U Q0 Q1) {x : Char} {b A v r : Str} (hx : x ∈ t!"tcd/") (hb : ∀ c ∈ x :: b, c ∈ asciiAlnum) (hA : AttOk A)
    (hv : ∀ r, Q1 r → Q0 (v ++ r)) (hr : Q0 r) : Q0 (Spec.elementWith (x :: b) A v ++ r) := by
  have h1 := F.tag '/' (x :: b) [] r (by decide) hb .nil hr
  have h2 := F.tag x b A _ hx (fun c hc => hb c (by simp [hc])) hA (hv _ h1)
  have := F.text [] _ .nil (by simp) h2
  simpa [Spec.elementWith] using this

theorem Frame.start (F : Frame U Q0 Q1) {r : Str} (h : Q1 r) : Q0 r := by
  have := F.text [] r .nil (by simp) h
  simpa using this

theorem Frame.cell (F : Frame U Q0 Q1) {b : Bool} {c : Spec.TCell} (h : c.Ok U.isLu b) {r : Str} (hr : Q0 r) : Q0 (c.html b ++ r) := by
  obtain ⟨x, hx, htag, -⟩ := tcell_tag c
  obtain ⟨h1, h2, h3⟩ := tcell_text h
  unfold Spec.TCell.html
  rw [htag, List.append_assoc]
  refine F.wss (F.elem (by decide) (by rcases hx with rfl | rfl <;> decide) (look_att h.look _ _ _) (fun r hr => ?_) hr) (by decide)
  exact F.text _ _ h3 (fun c hc => Alpha.mono (by decide) rfl (h1 c hc)) hr

theorem Frame.cells (F : Frame U Q0 Q1) {b : Bool} {r : Str} (hr : Q0 r) : ∀ {cs : List Spec.TCell}, (∀ c ∈ cs, c.Ok U.isLu b) → Q0 (cs.flatMap (Spec.TCell.html b) ++ r)
  | [], _ => hr
  | c :: cs, h => by
    rw [List.flatMap_cons, List.append_assoc]
    exact F.cell (h c (by simp)) (F.cells hr (fun c hc => h c (by simp [hc])))

theorem Frame.row (F : Frame U Q0 Q1) {b : Bool} {q : Spec.TRow} (h : q.Ok U.isLu b) {r : Str} (hr : Q0 r) : Q0 (q.html b ++ r) := by
  unfold Spec.TRow.html
  rw [List.append_assoc]
  refine F.wss (F.elem (by decide) (by decide) (look_att h.look _ _ _) (fun r hr => ?_) hr) (by decide)
  rw [List.append_assoc]
  exact F.cells (F.wss (F.start hr) (by decide)) h.cells

theorem Frame.rows (F : Frame U Q0 Q1) {b : Bool} {r : Str} (hr : Q0 r) : ∀ {cs : List Spec.TRow}, (∀ c ∈ cs, c.Ok U.isLu b) → Q0 (cs.flatMap (Spec.TRow.html b) ++ r)
  | [], _ => hr
  | c :: cs, h => by
    rw [List.flatMap_cons, List.append_assoc]
    exact F.row (h c (by simp)) (F.rows hr (fun c hc => h c (by simp [hc])))

/-- The rows of a section, and its attributes. -/
def SecOk (U : Uni) (b : Bool) (p : (Spec.Sect × Spec.Look) × List Spec.TRow) : Prop := p.1.2.Ok b ∧ ∀ q ∈ p.2, q.Ok U.isLu b

theorem Frame.sect (F : Frame U Q0 Q1) {b : Bool} {p : (Spec.Sect × Spec.Look) × List Spec.TRow} (h : SecOk U b p) {r : Str} (hr : Q0 r) :
    Q0 (Spec.tsectionHtml b p ++ r) := by
  unfold Spec.tsectionHtml
  rw [List.append_assoc]
  obtain ⟨y, hb, hb2⟩ : ∃ y, p.1.1.tag = 't' :: y ∧ ∀ c ∈ 't' :: y, c ∈ asciiAlnum := by
    cases p.1.1
    · exact ⟨t!"head", rfl, by decide⟩
    · exact ⟨t!"body", rfl, by decide⟩
    · exact ⟨t!"foot", rfl, by decide⟩
  rw [hb]
  refine F.wss (F.elem (by decide) hb2 (look_att h.1 _ _ _) (fun r hr => ?_) hr) (by decide)
  rw [List.append_assoc]
  exact F.rows (F.wss (F.start hr) (by decide)) h.2

theorem Frame.sects (F : Frame U Q0 Q1) {b : Bool} {r : Str} (hr : Q0 r) : ∀ {ps : List ((Spec.Sect × Spec.Look) × List Spec.TRow)}, (∀ p ∈ ps, SecOk U b p) →
    Q0 (ps.flatMap (Spec.tsectionHtml b) ++ r)
  | [], _ => hr
  | c :: cs, h => by
    rw [List.flatMap_cons, List.append_assoc]
    exact F.sect (h c (by simp)) (F.sects hr (fun c hc => h c (by simp [hc])))

theorem tsections_ok {b : Bool} : ∀ {rs : List Spec.TRow}, (∀ r ∈ rs, r.Ok U.isLu b) →
    (∀ q ∈ (Spec.tsections rs).1, q.Ok U.isLu b) ∧ ∀ p ∈ (Spec.tsections rs).2, SecOk U b p
  | [], _ => by simp [Spec.tsections]
  | r :: rs, h => by
    obtain ⟨h1, h2⟩ := tsections_ok (b := b) (rs := rs) (fun r hr => h r (by simp [hr]))
    have hr := h r (by simp)
    unfold Spec.tsections
    cases hs : r.sect with
    | none =>
      refine ⟨fun q hq => ?_, h2⟩
      rcases List.mem_cons.1 hq with rfl | hq
      · exact hr
      · exact h1 q hq
    | some m =>
      refine ⟨by simp, fun p hp => ?_⟩
      rcases List.mem_cons.1 hp with rfl | hp
      · refine ⟨hr.sect m hs, fun q hq => ?_⟩
        rcases List.mem_cons.1 hq with rfl | hq
        · exact hr
        · exact h1 q hq
      · exact h2 p hp

theorem label_plainly {t : Str} (h : Spec.Words U.isLu t) : Plainly U t ∧ ∀ c ∈ t, hWsA.Mem c := by
  have hok : ({ text := t, heading := true } : Spec.TCell).Ok U.isLu false := by
    refine ⟨h, ⟨by simp, by simp, by simp⟩, fun e => ?_⟩
    simp [Spec.TCell.marks, Spec.TCell.before] at e
  obtain ⟨h1, -, h3⟩ := tcell_text hok
  exact ⟨h3, fun c hc => Alpha.mono (by decide) rfl (h1 c hc)⟩

theorem Frame.table (F : Frame U Q0 Q1) {b : Bool} {t : Spec.TTable} (h : t.Ok U.isLu b) {r : Str} (hr : Q0 r) : Q0 (t.html b ++ r) := by
  obtain ⟨h1, h2⟩ := tsections_ok (U := U) h.rows
  unfold Spec.TTable.html Spec.tableTag
  rw [List.cons_append]
  refine F.ws _ _ (by decide) (F.elem (by decide) (by decide) (tatts_ok h) (fun r hr => ?_) hr)
  have hrest : Q0 ((Spec.tsections t.rows).2.flatMap (Spec.tsectionHtml b) ++ ((Spec.tsections t.rows).1.flatMap (Spec.TRow.html b) ++ (['\n', '\t'] ++ r))) :=
    F.sects (F.rows (F.wss (F.start hr) (by decide)) h1) h2
  rw [show t.top b ++ ((Spec.tsections t.rows).2.flatMap (Spec.tsectionHtml b) ++ ((Spec.tsections t.rows).1.flatMap (Spec.TRow.html b) ++ ['\n', '\t'])) ++ r =
    t.top b ++ ((Spec.tsections t.rows).2.flatMap (Spec.tsectionHtml b) ++ ((Spec.tsections t.rows).1.flatMap (Spec.TRow.html b) ++ (['\n', '\t'] ++ r))) by simp]
  unfold Spec.TTable.top
  cases hc : t.caption with
  | none => exact hrest
  | some m =>
    obtain ⟨c1, c2, -⟩ := h.caption m hc
    obtain ⟨p1, p2⟩ := label_plainly c2.words
    simp only [List.append_assoc]
    refine F.wss (F.elem (by decide) (by decide) (look_att c1 _ _ _) (fun r hr => ?_) (F.wss hrest (by decide))) (by decide)
    exact F.text _ _ p1 p2 hr

end

theorem frame_pieces {U : Uni} (hU : UniOk U) : Frame U (Pieces U) (fun r => ∃ g r', r = g ++ r' ∧ ListTag g ∧ Pieces U r') where
  text := by
    rintro w r hw - ⟨g, r', rfl, hg, hr⟩
    exact .tag hw hg hr
  ws := by
    intro c r hc hr
    have key : ∀ w, Plainly U w → Plainly U (c :: w) := by
      intro w hw
      refine ⟨?_, ?_⟩
      · intro d hd
        rcases List.mem_cons.1 hd with rfl | hd
        · exact .inl ((by decide : ∀ c ∈ ['\n', '\t'], c ∈ textA.ascii) _ hc)
        · exact hw.1 d hd
      · simp at hc
        rcases hc with rfl | rfl
        · exact Good.cons (neutral_nl hU).1 hw.2
        · exact Good.cons (neutral_nl hU).2 hw.2
    cases hr with
    | last hw => exact .last (key _ hw)
    | tag hw hg hr => exact .tag (w := c :: _) (key _ hw) hg hr
  tag := by
    intro x b A r hx hb hA hr
    have hn : ∀ c, c ∉ asciiAlnum → c ∉ b := fun c hc hm => hc (hb c hm)
    refine ⟨'<' :: x :: ((b ++ A) ++ ['>']), r, by simp, ⟨x, b ++ A, rfl, (by decide : ∀ x ∈ t!"tcd/", x ∈ t!"uoltdc/") x hx, ?_, ?_, ?_, ?_⟩, hr⟩
    · simp [hA.lt, hn '<' (by decide)]
    · simp [hA.gt, hn '>' (by decide)]
    · simp [hA.nl, hn '\n' (by decide)]
    · refine NoFc.infix (.append (.none (hn _ (by decide))) hA.fc ?_)
      rcases hA.head with h | h <;> rw [h] <;> simp

theorem ttable_pieces {U : Uni} (hU : UniOk U) {b : Bool} {t : Spec.TTable} (h : t.Ok U.isLu b) : Pieces U (t.html b) := by
  have := (frame_pieces hU).table h (.last .nil)
  simpa using this

theorem hM_seven {t : Str} (h : hM.Run 7 t) : hM.Run 1 t := by
  cases t with
  | nil => rfl
  | cons c t =>
    obtain ⟨e, he, hc, hr⟩ := h
    refine ⟨e, ?_, hc, hr⟩
    simp [hM, Auto.step] at he ⊢
    rcases he with rfl | rfl <;> simp

theorem frame_run {U : Uni} : Frame U (hM.Run 0) (hM.Run 0) where
  text := fun w r _ hw hr => run_loop (A := hWsA) (by simp [hM, Auto.step]) hr hw
  ws := fun c r hc hr => ⟨(hWsA, 0), by simp [hM, Auto.step], .inl ((by decide : ∀ c ∈ ['\n', '\t'], c ∈ hWsA.ascii) c hc), hr⟩
  tag := by
    intro x b A r hx hb hA hr
    have h7 := hM_seven (hA.run ('>' :: r) (run_one (q' := 0) (by simp [hM, Auto.step]) hr))
    have h1 := run_loop (M := hM) (A := ⟨asciiAlnum ++ t!"/", false⟩) (q := 1) (by simp [hM, Auto.step]) h7 (w := b)
      (fun c hc => .inl (List.mem_append_left _ (hb c hc)))
    refine run_one (q' := 1) (by simp [hM, Auto.step]) ⟨(⟨asciiAlnum ++ t!"/", false⟩, 1), by simp [hM, Auto.step], .inl ?_, h1⟩
    exact (by decide +kernel : ∀ x ∈ t!"tcd/", x ∈ asciiAlnum ++ t!"/") x hx

theorem ttable_run {U : Uni} {b : Bool} {t : Spec.TTable} (h : t.Ok U.isLu b) : hM.Run 0 (t.html b ++ t!"\n\n") := by
  refine (frame_run (U := U)).table h ?_
  exact readB_run (M := hM) (q' := 0) (rest := []) rfl (w := t!"\n\n") (q := 0) (by decide)

theorem ttable_last (b : Bool) (t : Spec.TTable) : (t.html b).getLast? = some '>' := by
  obtain ⟨u, hu⟩ : ∃ u, t.html b = u ++ ['>'] := by
    unfold Spec.TTable.html Spec.elementWith
    generalize t.atts b = A
    generalize t.top b ++ _ = v
    exact ⟨'\t' :: '<' :: (Spec.tableTag ++ (A ++ '>' :: (v ++ '<' :: '/' :: Spec.tableTag))), by simp⟩
  rw [hu]
  exact List.getLast?_concat ..

theorem ttable_unwrapped {U : Uni} (hU : UniOk U) {b : Bool} {t : Spec.TTable} (h : t.Ok U.isLu b) : hasRawText U (t.html b) = false := by
  have hA := tatts_ok h
  have : UNWRAPPABLE_RE.isMatch U (t.html b) = true := by
    obtain ⟨x, hx⟩ : ∃ x, t.html b = t!"\t" ++ ((t!"<" ++ ([] ++ (t!"table" ++ (t.atts b ++ t!">")))) ++ x) := by
      unfold Spec.TTable.html Spec.elementWith Spec.tableTag
      generalize t.top b ++ _ = v
      exact ⟨v ++ ['<', '/'] ++ (t!"table" ++ ['>']), by simp⟩
    rw [hx, unwrappable_shape]
    refine isMatch_later (.seq (.set rfl) (.seq (.right .eps) (.seq (Re.accepts_has (by decide +kernel)) (.seq ?_ (.set rfl)))))
    rcases hA.head with h0 | h0
    · rw [h0]; exact .right (.right .eps)
    · obtain ⟨u, hu⟩ : ∃ u, t.atts b = [' '] ++ u := by
        cases hb : t.atts b with
        | nil => rw [hb] at h0; cases h0
        | cons c u => rw [hb] at h0; simp at h0; exact ⟨u, by rw [h0]; rfl⟩
      have hlt := hA.lt
      have hgt := hA.gt
      rw [hu] at hlt hgt ⊢
      refine .left (.seq (.set ?_) (.star ?_))
      · rfl
      · intro c hc
        have h1 : c ≠ '<' := by rintro rfl; simp [hc] at hlt
        have h2 : c ≠ '>' := by rintro rfl; simp [hc] at hgt
        have e1 : c.toNat ≠ '<'.toNat := fun e => h1 (Char.toNat_inj.1 e)
        have e2 : c.toNat ≠ '>'.toNat := fun e => h2 (Char.toNat_inj.1 e)
        simp [evalSet, Item.eval]
        exact ⟨e1, e2⟩
  unfold hasRawText
  rw [this]
  simp

end Rustextile
