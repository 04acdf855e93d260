import Verif.EndDoc

/-!
# The list of notes
-/

namespace Rustextile

open Prog

/-! ## The order -/

theorem textBefore_eq : ∀ a b : Str, Spec.textBefore a b = strLt a b
  | _, [] => by cases ‹Str› <;> rfl
  | [], _ :: _ => rfl
  | a :: as, b :: bs => by
    rw [Spec.textBefore, strLt, textBefore_eq as bs]
    by_cases h1 : a.toNat < b.toNat
    · simp [h1]
    · by_cases h2 : b.toNat < a.toNat
      · have : a ≠ b := by rintro rfl; omega
        simp [h1, h2, this]
      · have : a = b := Char.toNat_inj.1 (by omega)
        subst this
        simp

/-- A note in the list, with its key. -/
def keyed (base : Str) (n : Spec.EndNote) : Str × NoteInfo := (natStr n.number, { noteInfo base n with seq := some n.label })

theorem insert_keyed (base : Str) (n : Spec.EndNote) : ∀ {l : List Spec.EndNote}, (∀ m ∈ l, m.number ≠ n.number) →
    (Spec.insertByNumeral n l).map (keyed base) = btInsert (natStr n.number) (keyed base n).2 (l.map (keyed base))
  | [], _ => rfl
  | m :: l, h => by
    have ih := insert_keyed base n (l := l) (fun m hm => h m (by simp [hm]))
    have hm : natStr m.number ≠ natStr n.number := fun e => h m (by simp) (natStr_inj e)
    rw [Spec.insertByNumeral, List.map_cons, show keyed base m = (natStr m.number, (keyed base m).2) from rfl, btInsert, if_neg hm, textBefore_eq,
      natStr_numeral, natStr_numeral]
    split
    · rfl
    · rw [List.map_cons, ih]; rfl

theorem mem_insert {n m : Spec.EndNote} : ∀ {l : List Spec.EndNote}, m ∈ Spec.insertByNumeral n l ↔ m = n ∨ m ∈ l
  | [] => by simp [Spec.insertByNumeral]
  | x :: l => by
    rw [Spec.insertByNumeral]
    split
    · simp
    · simp only [List.mem_cons, mem_insert (l := l)]
      constructor
      · rintro (h | h | h)
        · exact .inr (.inl h)
        · exact .inl h
        · exact .inr (.inr h)
      · rintro (h | h | h)
        · exact .inr (.inl h)
        · exact .inl h
        · exact .inr (.inr h)

theorem mem_sorted {m : Spec.EndNote} {l : List Spec.EndNote} : m ∈ l.foldr Spec.insertByNumeral [] ↔ m ∈ l := by
  induction l with
  | nil => simp
  | cons n l ih => rw [List.foldr_cons, mem_insert, ih, List.mem_cons]

theorem sorted_keyed (base : Str) : ∀ {l : List Spec.EndNote}, (l.map (·.number)).Nodup →
    Spec.SortedNames ((l.foldr Spec.insertByNumeral []).map (keyed base)) ∧
    ∀ k, alLookup k ((l.foldr Spec.insertByNumeral []).map (keyed base)) = (l.find? (fun n => natStr n.number == k)).map (fun n => (keyed base n).2)
  | [], _ => ⟨trivial, fun _ => rfl⟩
  | n :: l, h => by
    rw [List.map_cons, List.nodup_cons] at h
    obtain ⟨h1, h2⟩ := sorted_keyed base h.2
    have hm : ∀ m ∈ l.foldr Spec.insertByNumeral [], m.number ≠ n.number := by
      intro m hm e
      exact h.1 (List.mem_map.2 ⟨m, mem_sorted.1 hm, e⟩)
    rw [List.foldr_cons, insert_keyed base n hm]
    refine ⟨btInsert_sorted _ _ h1, ?_⟩
    intro k
    rw [btInsert_lookup, h2, List.find?_cons]
    by_cases e : natStr n.number = k
    · simp [e]
    · have : (natStr n.number == k) = false := by simpa using e
      rw [if_neg e, this]

/-! ## The notes that are referred to -/

def splitStep (o : List (Str × NoteInfo) × List (Str × NoteInfo)) (p : Str × NoteInfo) : List (Str × NoteInfo) × List (Str × NoteInfo) :=
  match p.2.seq with
  | some i => (btInsert i { p.2 with seq := some p.1 } o.1, o.2)
  | none => (o.1, btInsert p.1 p.2 o.2)

theorem split_fold : ∀ (L : List (Str × NoteInfo)) (o : List (Str × NoteInfo) × List (Str × NoteInfo)), Spec.SortedNames o.1 →
    Spec.SortedNames (L.foldl splitStep o).1 ∧
    (∀ k, (∀ p ∈ L, p.2.seq ≠ some k) → alLookup k (L.foldl splitStep o).1 = alLookup k o.1) ∧
    ∀ k p, p ∈ L → p.2.seq = some k → (∀ p' ∈ L, p'.2.seq = some k → p' = p) → alLookup k (L.foldl splitStep o).1 = some { p.2 with seq := some p.1 }
  | [], o, h => ⟨h, fun _ _ => rfl, by simp⟩
  | q :: L, o, h => by
    have hs : Spec.SortedNames (splitStep o q).1 := by
      unfold splitStep
      split
      · exact btInsert_sorted _ _ h
      · exact h
    obtain ⟨h1, h2, h3⟩ := split_fold L (splitStep o q) hs
    rw [List.foldl_cons]
    refine ⟨h1, ?_, ?_⟩
    · intro k hk
      rw [h2 k (fun p hp => hk p (by simp [hp]))]
      unfold splitStep
      cases e : q.2.seq with
      | none => rfl
      | some i =>
        simp only
        rw [btInsert_lookup, if_neg]
        rintro rfl
        exact hk q (by simp) e
    · intro k p hp hk hu
      by_cases hex : ∃ p' ∈ L, p'.2.seq = some k
      · obtain ⟨p', hp', hk'⟩ := hex
        have : p' = p := hu p' (by simp [hp']) hk'
        subst this
        exact h3 k p' hp' hk' (fun p'' hp'' => hu p'' (by simp [hp'']))
      · have hq : p = q := by
          rcases List.mem_cons.1 hp with e | e
          · exact e
          · exact absurd ⟨p, e, hk⟩ hex
        subst hq
        rw [h2 k (fun p' hp' e => hex ⟨p', hp', e⟩)]
        unfold splitStep
        rw [hk]
        simp only
        rw [btInsert_lookup, if_pos rfl]

theorem mem_lookup {β : Type} {k : Str} {v : β} : ∀ {l : List (Str × β)}, Spec.SortedNames l → (k, v) ∈ l → alLookup k l = some v
  | (a, b) :: l, h, hm => by
    rw [alLookup]
    rcases List.mem_cons.1 hm with e | hm
    · injection e with e1 e2
      subst e1; subst e2
      rw [if_pos rfl]
    · have := mem_lookup (sorted_tail h) hm
      rw [if_neg, this]
      rintro rfl
      rw [lookup_before (k := a) (a := (a, b)) h (.inl rfl)] at this
      cases this

theorem nodup_inj {α β : Type} {f : α → β} : ∀ {l : List α}, (l.map f).Nodup → ∀ n ∈ l, ∀ m ∈ l, f n = f m → n = m
  | x :: l, hd, n, hn, m, hm, e => by
    rw [List.map_cons, List.nodup_cons] at hd
    rcases List.mem_cons.1 hn with h1 | h1 <;> rcases List.mem_cons.1 hm with h2 | h2
    · rw [h1, h2]
    · exact absurd (List.mem_map.2 ⟨m, h2, by rw [← e, h1]⟩) hd.1
    · exact absurd (List.mem_map.2 ⟨n, h1, by rw [e, h2]⟩) hd.1
    · exact nodup_inj hd.2 n h1 m h2 e

/-- After the block parser the notes are kept under their numbers. -/
theorem split_notes {base : Str} {E : Spec.Ends} {a : Aux} (h : EndsIn base E a) (hn : (E.notes.map (·.number)).Nodup) :
    (splitNotes a).notes = E.listed.map (keyed base) := by
  obtain ⟨h1, h2, h3⟩ := split_fold a.notes ([], a.unrefNotes) trivial
  have e : (splitNotes a).notes = (a.notes.foldl splitStep ([], a.unrefNotes)).1 := by
    unfold splitNotes
    split
    · rename_i he
      have : a.notes = [] := by simpa using he
      rw [this]; rfl
    · rfl
  rw [e]
  obtain ⟨s1, s2⟩ := sorted_keyed base hn
  refine sorted_ext h1 s1 ?_
  intro k
  refine Eq.trans ?_ (s2 k).symm
  -- what is known of an entry with a number
  have hent : ∀ p ∈ a.notes, p.2.seq = some k → ∃ n ∈ E.notes, n.label = p.1 ∧ p.2 = noteInfo base n ∧ natStr n.number = k := by
    intro p hp hk
    have hl := mem_lookup h.sorted hp
    cases hf : E.find p.1 with
    | some n =>
      rw [h.known _ n hf] at hl
      simp at hl
      refine ⟨n, List.mem_of_find?_eq_some hf, find_label hf, hl.symm, ?_⟩
      rw [← hl] at hk
      simpa [noteInfo] using hk
    | none =>
      exfalso
      by_cases hlo : p.1 ∈ E.loose
      · obtain ⟨i, e1, e2⟩ := h.loose _ hf hlo
        rw [hl] at e1
        simp at e1
        rw [e1, e2] at hk; cases hk
      · rw [h.fresh _ hf hlo] at hl; cases hl
  have hinj := nodup_inj hn
  cases hf : E.notes.find? (fun n => natStr n.number == k) with
  | none =>
    rw [h2 k]
    · rfl
    · intro p hp hk
      obtain ⟨n, hm, -, -, e⟩ := hent p hp hk
      have := List.find?_eq_none.1 hf n hm
      simp [e] at this
  | some n =>
    have hm := List.mem_of_find?_eq_some hf
    have hk : natStr n.number = k := by simpa using List.find?_some hf
    have hfind : E.find n.label = some n := by
      cases hf' : E.find n.label with
      | none => exact absurd (List.mem_map.2 ⟨n, hm, rfl⟩) (find_none hf')
      | some m =>
        have hm' := List.mem_of_find?_eq_some hf'
        have hl' := find_label hf'
        rw [nodup_inj h.labels m hm' n hm hl']
    have hmem := alLookup_mem (h.known _ _ hfind)
    rw [h3 k (n.label, noteInfo base n) hmem (by simp [noteInfo, hk])]
    · rfl
    · intro p hp hpk
      obtain ⟨m, k1, k2, k3, k4⟩ := hent p hp hpk
      have : m = n := hinj m k1 n hm (natStr_inj (k4.trans hk.symm))
      subst this
      obtain ⟨p1, p2⟩ := p
      simp only at k2 k3
      rw [k2, k3]


/-! ## The items -/

theorem back_letter : ∀ i < 26, unescapeCharref (97 + i) = [Spec.backLetter i] := by decide +kernel

theorem join_eq (sep : Str) : ∀ ls : List Str, joinWith sep ls = Spec.join sep ls
  | [] => rfl
  | [l] => rfl
  | l :: m :: ls => by rw [joinWith, Spec.join, join_eq sep (m :: ls)]

theorem backLink_eq (base : Str) (r i : Nat) :
    t!"<sup><a href=\"#noteref" ++ Spec.noteId base r ++ t!"\">" ++ [Spec.backLetter i] ++ t!"</a></sup>" = Spec.noteBackLink base r i := by
  simp [Spec.noteBackLink, Spec.elementWith, Spec.attr, Spec.noterefName, Spec.supTag, Spec.hrefAttr]

theorem backRefLinks_eq (base : Str) : ∀ (rs : List Nat) (i : Nat), i + rs.length ≤ 26 →
    backRefLinks true (97 + i) (rs.map (Spec.noteId base)) = Spec.backLinksFrom base i rs
  | [], i, _ => rfl
  | r :: rs, i, h => by
    simp only [List.length_cons] at h
    rw [List.map_cons, backRefLinks, Spec.backLinksFrom, back_letter i (by omega), backLink_eq, if_pos rfl]
    congr 1
    exact backRefLinks_eq base rs (i + 1) (by omega)

theorem links_eq (base : Str) {n : Spec.EndNote} (h : n.refs.length ≤ 26) :
    makeBackRefLink { noteInfo base n with seq := some n.label } [] 'a' = n.links base := by
  have key : joinWith t!" " (backRefLinks true 97 (n.refs.map (Spec.noteId base))) = Spec.join [' '] (Spec.backLinksFrom base 0 n.refs) := by
    rw [join_eq]
    congr 1
    exact backRefLinks_eq base n.refs 0 (by omega)
  have ha : (!SYMS.contains 'a') = true := by decide +kernel
  unfold makeBackRefLink Spec.EndNote.links
  simp only [noteInfo, ha]
  cases hb : n.body.bind (·.back) with
  | none =>
    simp only [Option.map_none, Option.getD_none]
    rw [if_neg (by simp), if_neg (by simp)]
    exact key
  | some b =>
    simp only [Option.map_some, Option.getD_some]
    cases b with
    | every =>
      rw [if_neg (by simp [Spec.Back.mark]), if_neg (by simp [Spec.Back.mark])]
      exact key
    | first =>
      rw [if_neg (by simp [Spec.Back.mark]), if_pos (by simp [Spec.Back.mark])]
      cases hr : n.refs with
      | nil => rfl
      | cons r rs =>
        simp only [List.map_cons, List.take_succ_cons, List.take_zero, List.flatMap_cons, List.flatMap_nil, List.append_nil]
        rw [show 'a'.toNat = 97 + 0 from rfl, back_letter 0 (by omega), backLink_eq]
    | no => rw [if_pos (by simp [Spec.Back.mark])]

theorem undefinedNote_eq : Spec.undefinedNote = t!" Undefined Note [#" := by kernel_rfl

theorem noteItem_eq (base : Str) {n : Spec.EndNote} (h : n.refs.length ≤ 26) :
    noteItem [] 'a' (keyed base n).2 = '\t' :: '\t' :: n.item base := by
  have hl := links_eq base h
  have key : ∀ (i : NoteInfo) (ls : Str), makeBackRefLink i [] 'a' = ls → noteItem [] 'a' i =
      match i.attrs, i.content with
      | some atts, some content =>
        t!"\t\t<li" ++ atts ++ t!">" ++ ls ++ t!"<span id=\"note" ++ i.id ++ t!"\"> </span>" ++ content ++ t!"</li>"
      | _, _ => t!"\t\t<li>" ++ ls ++ t!" Undefined Note [#" ++ i.seq.getD [] ++ t!"].</li>" := by
    rintro i ls rfl; rfl
  rw [key (keyed base n).2 _ hl]
  unfold Spec.EndNote.item
  cases hb : n.body with
  | none =>
    simp only [undefinedNote_eq]
    simp [keyed, noteInfo, hb, Spec.elementWith, Spec.liTag]
  | some d => simp [keyed, noteInfo, hb, Spec.elementWith, Spec.liTag, Spec.spanTag, Spec.attr, Spec.idAttr, Spec.noteName]

/-! ## Texts that stand for themselves -/

/-- Neither the tags nor the breaks are changed in the text. -/
def Settled (base w : Str) : Prop := (∀ τ : PState, Rep (uidOf base) τ w w) ∧ Free t!"<br" w

theorem Settled.append {base a b : Str} (ha : Settled base a) (hb : Settled base b) : Settled base (a ++ b) :=
  ⟨fun τ => (ha.1 τ).append (hb.1 τ), ha.2.append hb.2⟩

theorem Settled.nil {base : Str} : Settled base [] := ⟨fun _ => Rep.nil, Free.nil⟩

theorem Settled.text {base w : Str} (h : ':' ∉ w) (h' : '<' ∉ w) : Settled base w :=
  ⟨fun τ => by have := (Rep.nil (uid := uidOf base) (σ := τ)).text h; simpa using this, Free.of_head rfl h'⟩

theorem Settled.element {base : Str} (hb : Spec.PlainBase base) {tag att w : Str} (ht : tag ∈ [t!"sup", t!"a", t!"span", t!"li", t!"ol"])
    (ha : TagText (uidOf base) att) (hw : Settled base w) : Settled base (Spec.elementWith tag att w) := by
  rw [elementWith_eq]
  have h1 : ':' ∉ tag ∧ free t!"<br" ('<' :: tag) = true ∧ ':' ∉ closeTag tag ∧ free t!"<br" (closeTag tag) = true := by
    simp only [List.mem_cons, List.not_mem_nil, or_false] at ht
    rcases ht with rfl | rfl | rfl | rfl | rfl <;> decide
  have o : Settled base (openTagA tag att) :=
    ⟨fun τ => by have := Rep.openTagA (σ := τ) hb h1.1 ha Rep.nil; simpa using this, free_open (Free.of h1.2.1) rfl ha.nolt⟩
  have c : Settled base (closeTag tag) :=
    ⟨fun τ => by have := (Rep.nil (uid := uidOf base) (σ := τ)).text h1.2.2.1; simpa using this, Free.of h1.2.2.2⟩
  exact o.append (hw.append c)

theorem attChars_tagText {base att : Str} (h : ∀ c ∈ att, c ∈ attChars) (hs : att = [] ∨ ∃ u, att = ' ' :: u) : TagText (uidOf base) att :=
  ⟨attChars_not (by decide +kernel) h, attChars_not (by decide +kernel) h, hs,
    containsStr_false_of_mem (c := ':') (by simp [uidOf]) (attChars_not (by decide +kernel) h)⟩

/-- What is known of the notes. -/
structure NoteFine (base : Str) (n : Spec.EndNote) : Prop where
  label : Spec.isLabel n.label
  body : ∀ d, n.body = some d → TagText (uidOf base) d.atts ∧ ':' ∉ d.text ∧ '<' ∉ d.text

theorem settled_backLink {base : Str} (hb : Spec.PlainBase base) (r i : Nat) (hi : i < 26) : Settled base (Spec.noteBackLink base r i) := by
  have hl : ∀ i < 26, ':' ∉ [Spec.backLetter i] ∧ '<' ∉ [Spec.backLetter i] := by decide +kernel
  refine Settled.element hb (by simp [Spec.supTag]) (tagText_nil _ (by simp [uidOf])) (Settled.element hb (by simp) ?_ (Settled.text (hl i hi).1 (hl i hi).2))
  exact attChars_tagText (fnAttr_chars (by decide +kernel) (fn_chars hb t!"#noteref" (by decide +kernel) _)) (.inr ⟨_, rfl⟩)

theorem settled_join {base : Str} {sep : Str} (hs : Settled base sep) : ∀ {ls : List Str}, (∀ l ∈ ls, Settled base l) → Settled base (Spec.join sep ls)
  | [], _ => Settled.nil
  | [l], h => h l (by simp)
  | l :: m :: ls, h => by
    rw [Spec.join]
    exact ((h l (by simp)).append hs).append (settled_join hs (fun x hx => h x (List.mem_cons_of_mem _ hx)))

theorem settled_backLinks {base : Str} (hb : Spec.PlainBase base) : ∀ (rs : List Nat) (i : Nat), i + rs.length ≤ 26 →
    ∀ l ∈ Spec.backLinksFrom base i rs, Settled base l
  | [], _, _, l, hl => by cases hl
  | r :: rs, i, h, l, hl => by
    simp only [List.length_cons] at h
    rcases List.mem_cons.1 hl with rfl | hl
    · exact settled_backLink hb r i (by omega)
    · exact settled_backLinks hb rs (i + 1) (by omega) l hl

theorem settled_item {base : Str} (hb : Spec.PlainBase base) {n : Spec.EndNote} (h : NoteFine base n) (hr : n.refs.length ≤ 26) :
    Settled base (n.item base) := by
  have hnil := tagText_nil (uidOf base) (by simp [uidOf])
  have hl : Settled base (n.links base) := by
    unfold Spec.EndNote.links
    split
    · exact settled_join (Settled.text (by decide) (by decide)) (settled_backLinks hb n.refs 0 (by omega))
    · cases n.refs with
      | nil => exact Settled.nil
      | cons r rs => simpa using settled_backLink hb r 0 (by omega)
    · exact Settled.nil
  unfold Spec.EndNote.item
  cases hbd : n.body with
  | none =>
    refine Settled.element hb (by simp [Spec.liTag]) hnil (hl.append (Settled.text ?_ ?_))
    all_goals
      have hx := h.label.2
      simp only [List.mem_append, not_or]
      refine ⟨by rw [undefinedNote_eq]; decide, ?_, by decide⟩
      intro hm
      have := hx _ hm
      revert this; decide
  | some d =>
    obtain ⟨h1, h2, h3⟩ := h.body d hbd
    refine Settled.element hb (by simp [Spec.liTag]) h1 (hl.append ((Settled.element hb (by simp [Spec.spanTag]) ?_ (Settled.text (by decide) (by decide))).append
      (Settled.text h2 h3)))
    exact attChars_tagText (fnAttr_chars (by decide +kernel) (fn_chars hb t!"note" (by decide +kernel) _)) (.inr ⟨_, rfl⟩)

theorem settled_list {base : Str} (hb : Spec.PlainBase base) {E : Spec.Ends} (h : ∀ n ∈ E.notes, NoteFine base n) (hr : ∀ n ∈ E.notes, n.refs.length ≤ 26) :
    Settled base (E.list base) := by
  refine Settled.element hb (by simp [Spec.olTag]) (tagText_nil _ (by simp [uidOf])) ?_
  have h1 : Settled base ['\n'] := Settled.text (by decide) (by decide)
  refine h1.append ((settled_join h1 ?_).append (Settled.text (w := ['\n', '\t']) (by decide) (by decide)))
  intro l hl
  obtain ⟨n, hn, rfl⟩ := List.mem_map.1 hl
  have hn' := mem_sorted.1 hn
  exact (Settled.text (base := base) (w := ['\t', '\t']) (by decide) (by decide)).append (settled_item hb (h n hn') (hr n hn'))

/-! ## What is known of the notes of a document -/

structure BookFine (base : Str) (B : Spec.Book) : Prop where
  numbers : B.ends.notes.map (·.number) = (List.range B.ends.notes.length).map (· + 1)
  notes : ∀ n ∈ B.ends.notes, NoteFine base n

theorem BookFine.nodup {base : Str} {B : Spec.Book} (h : BookFine base B) : (B.ends.notes.map (·.number)).Nodup := by
  rw [h.numbers, List.Nodup, List.pairwise_map]
  refine List.Pairwise.imp ?_ (List.nodup_range (n := B.ends.notes.length))
  intro a b hab e
  exact hab (by omega)

theorem BookFine.change {base : Str} {B : Spec.Book} (h : BookFine base B) (l : Str) {f : Spec.EndNote → Spec.EndNote} (F : Spec.Notes)
    (h1 : ∀ n, (f n).number = n.number) (h2 : ∀ n, NoteFine base n → NoteFine base (f n)) : BookFine base ⟨F, B.ends.change l f⟩ where
  numbers := by
    simp only [Spec.Ends.change, List.length_map, List.map_map]
    rw [← h.numbers]
    apply List.map_congr_left
    intro n _
    simp only [Function.comp]
    split
    · exact h1 n
    · rfl
  notes := by
    intro n hn
    simp only [Spec.Ends.change] at hn
    obtain ⟨m, hm, rfl⟩ := List.mem_map.1 hn
    split
    · exact h2 m (h.notes m hm)
    · exact h.notes m hm

theorem BookFine.refer {base : Str} {B : Spec.Book} (h : BookFine base B) {l : Str} (hl : Spec.isLabel l) : BookFine base (B.refer l) := by
  unfold Spec.Book.refer
  split
  · exact h.change l _ (fun _ => rfl) (fun n hn => ⟨hn.label, hn.body⟩)
  · constructor
    · simp [h.numbers, List.range_succ]
    · intro n hn
      rcases List.mem_append.1 hn with hn | hn
      · exact h.notes n hn
      · rw [List.mem_singleton] at hn
        subst hn
        exact ⟨hl, by rintro d ⟨⟩⟩

theorem BookFine.define {base : Str} {B : Spec.Book} (h : BookFine base B) {l : Str} {d : Spec.NoteBody}
    (hd : TagText (uidOf base) d.atts ∧ ':' ∉ d.text ∧ '<' ∉ d.text) : BookFine base (B.define l d) := by
  unfold Spec.Book.define
  split
  · split
    · exact h
    · exact h.change l _ (fun _ => rfl) (fun n hn => ⟨hn.label, by rintro d' ⟨⟩; exact hd⟩)
  · split
    · exact h
    · exact ⟨h.numbers, h.notes⟩

theorem BookFine.refs {base : Str} : ∀ {rs : List (Str × Str)} {B : Spec.Book}, BookFine base B → (∀ r ∈ rs, Spec.isLabel r.1) →
    BookFine base (rs.foldl (fun B r => B.refer r.1) B)
  | [], _, h, _ => h
  | r :: rs, _, h, hl => BookFine.refs (rs := rs) (h.refer (hl r (by simp))) (fun x hx => hl x (by simp [hx]))

/-! ## The list is put in its place -/

theorem NOTELIST_shape : NOTELIST_RE = .seq (.set false [.chr '<']) (.seq (.set false [.chr 'p']) (.seq (.set false [.chr '>'])
    (.seq (.set false [.chr 'n']) (.seq (.set false [.chr 'o']) (.seq (.set false [.chr 't']) (.seq (.set false [.chr 'e'])
    (.seq (.set false [.chr 'l']) (.seq (.set false [.chr 'i']) (.seq (.set false [.chr 's']) (.seq (.set false [.chr 't'])
    (.seq (.grp 1 groupsRe) (.seq (.alt (.seq (.set false [.chr ':']) (.grp 2 (.set false [.cls .word, .chr '|', .chr '¤', .chr '§', .chr 'µ', .chr '¶',
      .chr '†', .chr '‡', .chr '•', .chr '∗', .chr '∴', .chr '◊', .chr '♠', .chr '♣', .chr '♥', .chr '♦']))) .eps)
    (.seq (.grp 3 (.alt (.set false [.chr '^', .chr '!']) .eps)) (.seq (.grp 4 (.alt (.set false [.chr '+']) .eps))
    (.seq (.alt (.set false [.chr '.']) .eps) (.seq (.star true (.set false [.cls .space]))
    (.seq (.set false [.chr '<']) (.seq (.set false [.chr '/']) (.seq (.set false [.chr 'p']) (.set false [.chr '>'])))))))))))))))))))) := by
  kernel_rfl

/-- What the block parser leaves in the place of a list. -/
def listMark : Str := t!"<p>notelist.</p>"

theorem notelist_hit {U : Uni} (pre rest : Str) :
    NOTELIST_RE.matchAt U ⟨pre, listMark ++ rest⟩ = some (⟨listMark.reverse ++ pre, rest⟩, [(4, []), (3, []), (1, [])]) := by
  rw [NOTELIST_shape]
  apply Heads.matchAt
  have e : listMark = ['<'] ++ (['p'] ++ (['>'] ++ (['n'] ++ (['o'] ++ (['t'] ++ (['e'] ++ (['l'] ++ (['i'] ++ (['s'] ++ (['t'] ++
    ([] ++ ([] ++ ([] ++ ([] ++ (['.'] ++ ([] ++ (['<'] ++ (['/'] ++ (['p'] ++ ['>'])))))))))))))))))))  := rfl
  rw [e]
  refine Heads.seq .chr (.seq .chr (.seq .chr (.seq .chr (.seq .chr (.seq .chr (.seq .chr (.seq .chr (.seq .chr (.seq .chr (.seq .chr
    (Heads.seq (s1 := [(1, [])]) (Heads.grp (s' := []) (groups_heads (gs := []) (by simp) (by simp) ?_))
    (Heads.seq (Heads.right rfl .eps)
    (Heads.seq (s1 := [(3, []), (1, [])]) (Heads.grp (s' := [(1, [])]) (Heads.right rfl .eps))
    (Heads.seq (s1 := [(4, []), (3, []), (1, [])]) (Heads.grp (s' := [(3, []), (1, [])]) (Heads.right rfl .eps))
    (Heads.seq (Heads.left .chr) (Heads.seq (Heads.star (by simp) ?_) (Heads.seq .chr (.seq .chr (.seq .chr .chr)))))))))))))))))))
  · intro c hc; simp at hc; subst hc; decide
  · intro c hc; simp at hc; subst hc; rfl

theorem NOTELIST_nonnull : NOTELIST_RE.nonnull = true := by kernel_rfl

theorem notelist_skips {U : Uni} {w : Str} (h : Free t!"<p>notelist" w) (pre rest : Str) : Skips U NOTELIST_RE pre w rest := by
  intro u x v e
  rw [Re.matchAt_none]
  cases hl : NOTELIST_RE.all U ⟨u.reverse ++ pre, x :: v ++ rest⟩ [] with
  | nil => rfl
  | cons p l =>
    exfalso
    obtain ⟨w', hw, lw⟩ := Re.all_lang NOTELIST_RE ⟨u.reverse ++ pre, x :: v ++ rest⟩ [] p (by rw [hl]; simp)
    obtain ⟨y, rfl⟩ := Re.starts_lang NOTELIST_starts lw
    have h1 := hw.1
    simp only at h1
    exact h.at (r := rest) e (y ++ p.1.rest) (by rw [h1]; simp)

theorem free_of_contains {q : Str} (h : containsStr t!"<p>notelist" q = false) (k : Nat) : Free t!"<p>notelist" (q ++ nls (k + 1)) := by
  have h1 : Free t!"<p>notelist" (q ++ ['\n']) := free_stop (fun hi => by
    obtain ⟨a, b, e⟩ := hi
    have := containsStr_iff (n := t!"<p>notelist") (s := q) |>.2 ⟨a, b, by rw [← e]; simp⟩
    rw [h] at this; cases this) (by decide)
  have h2 : Free t!"<p>notelist" (nls k) := Free.of_head rfl (by simp [nls])
  have := h1.append h2
  rwa [show q ++ ['\n'] ++ nls k = q ++ nls (k + 1) by simp [nls, List.replicate_succ]] at this

/-- The texts before the list. -/
def leadText (qs : List (Str × Nat)) : Str := qs.flatMap (fun p => p.1 ++ nls (p.2 + 2))

theorem glue_lead (x : Str) (k : Nat) (b : List (Str × Nat)) : ∀ a : List (Str × Nat), Spec.glue (a ++ (x, k) :: b) = leadText a ++ (x ++ added (nls (k + 2)) b)
  | [] => by
    unfold added leadText
    split
    · rename_i e; subst e; simp [Spec.glue]
    · rename_i e; simp [glue_cons e]
  | p :: a => by
    have ih := glue_lead x k b a
    obtain ⟨p1, p2⟩ := p
    rw [List.cons_append, glue_cons (by simp), ih]
    simp [leadText]

theorem free_lead : ∀ {qs : List (Str × Nat)}, (∀ q ∈ qs, containsStr t!"<p>notelist" q.1 = false) → Free t!"<p>notelist" (leadText qs)
  | [], _ => Free.nil
  | q :: qs, h => by
    rw [leadText, List.flatMap_cons]
    exact (free_of_contains (h q (by simp)) (q.2 + 1)).append (free_lead (fun x hx => h x (by simp [hx])))

/-- The rest of a text in which there is no list. -/
theorem scan_rest {C : Ctx} {f : Mat → Prog Str} {σ : PState} {w : Str} (h : containsStr t!"<p>notelist" w = false) (pre : Str) :
    ScanP C NOTELIST_RE f pre w σ w σ := by
  have := ScanP.of_skips (C := C) (r := NOTELIST_RE) (f := f) (σ := σ) (σ' := σ) (w := w) (pre := pre) (rest := []) (out := []) ?_ .nil
  · simpa using this
  · intro u x v e
    rw [Re.matchAt_none]
    cases hl : NOTELIST_RE.all C.U ⟨u.reverse ++ pre, x :: v ++ []⟩ [] with
    | nil => rfl
    | cons p l =>
      exfalso
      obtain ⟨w', hw, lw⟩ := Re.all_lang NOTELIST_RE ⟨u.reverse ++ pre, x :: v ++ []⟩ [] p (by rw [hl]; simp)
      obtain ⟨y, rfl⟩ := Re.starts_lang NOTELIST_starts lw
      have h1 := hw.1
      simp only [List.append_nil] at h1
      have := containsStr_iff (n := t!"<p>notelist") (s := w) |>.2 ⟨u, y ++ p.1.rest, by rw [e, h1]; simp⟩
      rw [h] at this; cases this

theorem place_none {C : Ctx} {σ : PState} {w : Str} (h : containsStr t!"<p>notelist" w = false) :
    Runs C (placeNoteLists C w) w σ { σ with aux := splitNotes σ.aux } :=
  (Runs.setAux splitNotes σ).bind (ScanP.runs NOTELIST_nonnull (fun _ => rfl) (scan_rest h []))

theorem splitNotes_cache (a : Aux) : (splitNotes a).notelistCache = a.notelistCache ∧ (splitNotes a).urlrefs = a.urlrefs := by
  unfold splitNotes
  split <;> exact ⟨rfl, rfl⟩

theorem fNoteList_runs {C : Ctx} {base : Str} {E : Spec.Ends} {σ : PState} (h1 : σ.aux.notes = E.listed.map (keyed base)) (h2 : σ.aux.notelistCache = [])
    (hne : E.notes ≠ []) (hr : ∀ n ∈ E.notes, n.refs.length ≤ 26) (gap w : Str) :
    ∃ a, a.urlrefs = σ.aux.urlrefs ∧ Runs C (fNoteList C ⟨gap, w, [(4, []), (3, []), (1, [])]⟩) (E.list base) σ { σ with aux := a } := by
  have hitems : σ.aux.notes.map (fun p => noteItem [] 'a' p.2) = E.listed.map (fun n => '\t' :: '\t' :: n.item base) := by
    rw [h1, List.map_map]
    apply List.map_congr_left
    intro n hn
    exact noteItem_eq base (hr n (mem_sorted.1 hn))
  have hres : ∃ c u, joinWith t!"\n" (σ.aux.notes.map (fun p => noteItem [] 'a' p.2) ++ []) = c :: u := by
    rw [hitems, List.append_nil, join_eq]
    cases hl : E.listed with
    | nil =>
      exfalso
      obtain ⟨n, l, e⟩ := List.exists_cons_of_ne_nil hne
      have : n ∈ E.listed := mem_sorted.2 (by rw [e]; simp)
      rw [hl] at this; cases this
    | cons n l => cases l <;> exact ⟨_, _, rfl⟩
  refine ⟨{ σ.aux with notelistCache := imInsert ['a'] (joinWith t!"\n" (σ.aux.notes.map (fun p => noteItem [] 'a' p.2) ++ [])) σ.aux.notelistCache }, rfl, ?_⟩
  unfold fNoteList
  refine (runs_getSt σ).bind ?_
  rw [if_neg (by rw [h2]; simp [alLookup])]
  refine Runs.bind (Runs.bind (Runs.setAux _ σ) (Runs.pure _ _)) ?_
  obtain ⟨c, u, hcu⟩ := hres
  rw [if_neg (by
    show ¬ (joinWith t!"\n" (σ.aux.notes.map (fun p => noteItem [] 'a' p.2) ++ [])).isEmpty = true
    rw [hcu]; simp)]
  rw [show Mat.grp ⟨gap, w, [(4, []), (3, []), (1, [])]⟩ 1 = [] from rfl, parseAttrs_nil, pure_bind]
  refine Runs.pure' ?_
  show t!"<ol" ++ BAttrs.toStr {} ++ t!">\n" ++ joinWith t!"\n" (σ.aux.notes.map (fun p => noteItem [] 'a' p.2) ++ []) ++ t!"\n\t</ol>" = _
  rw [hitems, List.append_nil, join_eq, show BAttrs.toStr {} = [] from rfl]
  simp [Spec.Ends.list, Spec.elementWith, Spec.olTag]

theorem place_list {C : Ctx} {base : Str} {B : Spec.Book} {σ : PState} (hσ : BookState base B σ) (hf : BookFine base B)
    (hne : B.ends.notes ≠ []) (hr : ∀ n ∈ B.ends.notes, n.refs.length ≤ 26) {q1 q2 : List (Str × Nat)} {k : Nat}
    (h1 : ∀ q ∈ q1, containsStr t!"<p>notelist" q.1 = false) (h2 : ∀ q ∈ q2, containsStr t!"<p>notelist" q.1 = false) :
    ∃ a, a.urlrefs = σ.aux.urlrefs ∧ Runs C (placeNoteLists C (Spec.glue (q1 ++ (listMark, k) :: q2)))
      (Spec.glue (q1 ++ (B.ends.list base, k) :: q2)) σ { σ with aux := a } := by
  have hs := split_notes hσ.ends hf.nodup
  obtain ⟨c1, c2⟩ := splitNotes_cache σ.aux
  obtain ⟨a, ha, hrun⟩ := fNoteList_runs (C := C) (σ := { σ with aux := splitNotes σ.aux }) hs (by rw [c1]; exact hσ.ends.cache) hne hr [] listMark
  refine ⟨a, by rw [ha]; exact c2, (Runs.setAux splitNotes σ).bind (ScanP.runs NOTELIST_nonnull (fun _ => rfl) ?_)⟩
  rw [glue_lead, glue_lead]
  refine ScanP.of_skips (notelist_skips (free_lead h1) _ _) (ScanP.hit (notelist_hit _ _) (by simp [listMark]) (fun gap => hrun) (scan_rest ?_ _))
  unfold added
  split
  · rfl
  · exact not_contains_nls (by decide) (by simp) (not_contains_glue (by decide) (by simp) h2) _

end Rustextile
