import Verif.Spec
import Verif.StrLemmas
import Verif.Demo

/-!
# Escaping, attribute values, generated tags: C17–C20
-/

namespace Rustextile

/-! ## Decoding after encoding -/

theorem decodeFrom_skip : ∀ (n : Nat) (w t : Str), w.length = n → Spec.decodeFrom n (w ++ t) = Spec.decodeFrom 0 t
  | 0, [], t, _ => rfl
  | n + 1, x :: w, t, h => by
    simp only [List.cons_append, Spec.decodeFrom]
    exact decodeFrom_skip n w t (by simpa using h)

theorem decode_plain {c : Char} (h : c ≠ '&') (t : Str) : Spec.decode (c :: t) = c :: Spec.decode t := by
  simp [Spec.decode, Spec.decodeFrom, h]

theorem decode_ref {w t : Str} {d : Char} (h : Spec.readRef (w ++ t) = some (d, w.length)) :
    Spec.decode ('&' :: (w ++ t)) = d :: Spec.decode t := by
  simp only [Spec.decode, Spec.decodeFrom, if_true, h]
  rw [decodeFrom_skip _ _ _ rfl]

/-- What a character becomes after encoding and decoding. -/
def encDec (spacers : Bool) (c : Char) : Char := if spacers then Spec.swapNewlines c else c

theorem map_encDec_false (s : Str) : s.map (encDec false) = s := by
  induction s with
  | nil => rfl
  | cons c s ih => rw [List.map_cons, ih]; rfl

theorem map_encDec_true (s : Str) : s.map (encDec true) = s.map Spec.swapNewlines := rfl

theorem readRef_amp (t : Str) : Spec.readRef (t!"amp;" ++ t) = some ('&', 4) := by
  simp [Spec.readRef, List.isPrefixOf]
theorem readRef_lt (t : Str) : Spec.readRef (t!"lt;" ++ t) = some ('<', 3) := by
  simp [Spec.readRef, List.isPrefixOf]
theorem readRef_gt (t : Str) : Spec.readRef (t!"gt;" ++ t) = some ('>', 3) := by
  simp [Spec.readRef, List.isPrefixOf]
theorem readRef_quot (t : Str) : Spec.readRef (t!"quot;" ++ t) = some ('"', 5) := by
  simp [Spec.readRef, List.isPrefixOf]
theorem readRef_39 (t : Str) : Spec.readRef (t!"#39;" ++ t) = some ('\'', 4) := by
  simp [Spec.readRef, List.isPrefixOf, List.takeWhile, List.dropWhile, Spec.isDecimal, Spec.decimal]
theorem readRef_13 (t : Str) : Spec.readRef (t!"#13;" ++ t) = some ('\r', 4) := by
  simp [Spec.readRef, List.isPrefixOf, List.takeWhile, List.dropWhile, Spec.isDecimal, Spec.decimal]
theorem readRef_10 (t : Str) : Spec.readRef (t!"#10;" ++ t) = some ('\n', 4) := by
  simp [Spec.readRef, List.isPrefixOf, List.takeWhile, List.dropWhile, Spec.isDecimal, Spec.decimal]
theorem readRef_9 (t : Str) : Spec.readRef (t!"#9;" ++ t) = some ('\t', 3) := by
  simp [Spec.readRef, List.isPrefixOf, List.takeWhile, List.dropWhile, Spec.isDecimal, Spec.decimal]

theorem decode_encChar (q sp : Bool) (c : Char) (t : Str) :
    Spec.decode (encChar q sp c ++ t) = encDec sp c :: Spec.decode t := by
  unfold encChar
  repeat' split
  · rename_i h; simp at h; subst h
    have := decode_ref (readRef_amp t); cases sp <;> simpa [encDec, Spec.swapNewlines] using this
  · rename_i h; simp at h; subst h
    have := decode_ref (readRef_lt t); cases sp <;> simpa [encDec, Spec.swapNewlines] using this
  · rename_i h; simp at h; subst h
    have := decode_ref (readRef_gt t); cases sp <;> simpa [encDec, Spec.swapNewlines] using this
  · rename_i h; simp at h; obtain ⟨_, rfl⟩ := h
    have := decode_ref (readRef_quot t); cases sp <;> simpa [encDec, Spec.swapNewlines] using this
  · rename_i h; simp at h; obtain ⟨_, rfl⟩ := h
    have := decode_ref (readRef_39 t); cases sp <;> simpa [encDec, Spec.swapNewlines] using this
  · rename_i h; simp at h; obtain ⟨rfl, rfl⟩ := h
    have := decode_ref (readRef_13 t); simpa [encDec, Spec.swapNewlines] using this
  · rename_i h; simp at h; obtain ⟨rfl, rfl⟩ := h
    have := decode_ref (readRef_10 t); simpa [encDec, Spec.swapNewlines] using this
  · rename_i h; simp at h; obtain ⟨rfl, rfl⟩ := h
    have := decode_ref (readRef_9 t); simpa [encDec, Spec.swapNewlines] using this
  · rename_i h1 h2 h3 h4 h5 h6 h7 h8
    simp at h1 h6 h7
    rw [List.singleton_append, decode_plain h1]
    congr 1
    cases sp
    · rfl
    · simp [encDec, Spec.swapNewlines, h6, h7]

theorem decode_encodeHtml (q sp : Bool) : ∀ s : Str,
    Spec.decode (encodeHtml s q sp) = s.map (encDec sp)
  | [] => rfl
  | c :: s => by
    have := decode_encChar q sp c (encodeHtml s q sp)
    simp only [encodeHtml, List.flatMap_cons, List.map_cons] at this ⊢
    rw [this]
    congr 1
    exact decode_encodeHtml q sp s

theorem mem_encChar {q sp : Bool} {c x : Char} (h : x ∈ encChar q sp c) :
    x ≠ '<' ∧ x ≠ '>' ∧ (q = true → x ≠ '"' ∧ x ≠ '\'') ∧
      (sp = true → x ≠ '\n' ∧ x ≠ '\r' ∧ x ≠ '\t') := by
  unfold encChar at h
  repeat' split at h
  all_goals first
    | (simp at h; subst h; simp_all)
    | (simp at h; rcases h with rfl | rfl | rfl | rfl | rfl | rfl <;> simp)
    | (simp at h; rcases h with rfl | rfl | rfl | rfl | rfl <;> simp)
    | (simp at h; rcases h with rfl | rfl | rfl | rfl <;> simp)

theorem amps_ref {w t : Str} (h : Spec.readRef (w ++ t) ≠ none) (hw : '&' ∉ w) (ih : Spec.AmpsAreRefs t) :
    Spec.AmpsAreRefs ('&' :: (w ++ t)) := by
  refine ⟨fun _ => h, ?_⟩
  clear h
  induction w with
  | nil => exact ih
  | cons x w ihw =>
    simp at hw
    exact ⟨fun h => absurd h.symm hw.1, ihw hw.2⟩

/-- Every `&` written by the encoder starts a reference. -/
theorem amps_encodeHtml (q sp : Bool) : ∀ s : Str, Spec.AmpsAreRefs (encodeHtml s q sp)
  | [] => trivial
  | c :: s => by
    have ih := amps_encodeHtml q sp s
    simp only [encodeHtml, List.flatMap_cons] at ih ⊢
    generalize s.flatMap (encChar q sp) = t at ih
    unfold encChar
    repeat' split
    · exact amps_ref (w := t!"amp;") (by rw [readRef_amp]; simp) (by decide) ih
    · exact amps_ref (w := t!"lt;") (by rw [readRef_lt]; simp) (by decide) ih
    · exact amps_ref (w := t!"gt;") (by rw [readRef_gt]; simp) (by decide) ih
    · exact amps_ref (w := t!"quot;") (by rw [readRef_quot]; simp) (by decide) ih
    · exact amps_ref (w := t!"#39;") (by rw [readRef_39]; simp) (by decide) ih
    · exact amps_ref (w := t!"#13;") (by rw [readRef_13]; simp) (by decide) ih
    · exact amps_ref (w := t!"#10;") (by rw [readRef_10]; simp) (by decide) ih
    · exact amps_ref (w := t!"#9;") (by rw [readRef_9]; simp) (by decide) ih
    · rename_i h1 _ _ _ _ _ _ _
      simp at h1
      exact ⟨fun h => absurd h h1, ih⟩

/-! ## C17 -/

/-- **C17** (complete; lossless up to the defect below). For every string and both
options: no `<` or `>` remains; no quote remains when quotes are escaped; no tab or
newline remains when these are escaped; every `&` starts a reference; decoding gives
the string back when newlines are not escaped, and the string with CR and LF
exchanged when they are; escaping commutes with concatenation. -/
theorem C17_escape_partial (s t : Str) (q sp : Bool) :
    (∀ c ∈ encodeHtml s q sp, c ≠ '<' ∧ c ≠ '>' ∧ (q = true → c ≠ '"' ∧ c ≠ '\'') ∧
      (sp = true → c ≠ '\n' ∧ c ≠ '\r' ∧ c ≠ '\t')) ∧
    Spec.AmpsAreRefs (encodeHtml s q sp) ∧
    (sp = false → Spec.decode (encodeHtml s q sp) = s) ∧
    (sp = true → Spec.decode (encodeHtml s q sp) = s.map Spec.swapNewlines) ∧
    encodeHtml (s ++ t) q sp = encodeHtml s q sp ++ encodeHtml t q sp := by
  refine ⟨?_, amps_encodeHtml q sp s, ?_, ?_, ?_⟩
  · intro c hc
    obtain ⟨x, _, hx⟩ := List.mem_flatMap.1 hc
    exact mem_encChar hx
  · rintro rfl; rw [decode_encodeHtml, map_encDec_false]
  · rintro rfl; rw [decode_encodeHtml, map_encDec_true]
  · simp [encodeHtml]

example : encodeHtml t!"a<b>&\"'" true true = t!"a&lt;b&gt;&amp;&quot;&#39;" ∧
    Spec.decode t!"a&lt;b&gt;&amp;&quot;&#39;" = t!"a<b>&\"'" := by decide

/-- **C17 fails for newlines**: with white space escaping on, decoding does not give
the string back (`\n` becomes `&#13;`, a carriage return). -/
theorem C17_negation : ∃ s : Str, Spec.decode (encodeHtml s true true) ≠ s := ⟨t!"\n", by decide⟩

/-- Escaping loses no information. -/
theorem C17_injective (s t : Str) (q sp : Bool) (h : encodeHtml s q sp = encodeHtml t q sp) : s = t := by
  have h2 : ∀ c, Spec.swapNewlines (Spec.swapNewlines c) = c := by
    intro c; unfold Spec.swapNewlines
    by_cases h1 : c = '\n'
    · subst h1; decide
    · by_cases h2 : c = '\r'
      · subst h2; decide
      · simp [h1, h2]
  have h1 := congrArg Spec.decode h
  rw [decode_encodeHtml, decode_encodeHtml] at h1
  cases sp with
  | false => rwa [map_encDec_false, map_encDec_false] at h1
  | true =>
    rw [map_encDec_true, map_encDec_true] at h1
    have := congrArg (List.map Spec.swapNewlines) h1
    simpa [Function.comp_def, h2] using this

/-! ## C18 -/

theorem contains_iff {s : Str} {c : Char} : s.contains c = true ↔ c ∈ s := by simp

/-- Replacing `"` by its reference. -/
theorem replaceStr_quote : ∀ s : Str, replaceStr t!"\"" t!"&quot;" s =
    s.flatMap (fun c => if c = '"' then t!"&quot;" else [c])
  | [] => rfl
  | c :: s => by
    by_cases h : c = '"'
    · subst h
      have := replaceStr_hit (n := t!"\"") (rep := t!"&quot;") (t := s) (by simp)
      simp only [List.singleton_append] at this
      rw [this, replaceStr_quote s]; simp
    · rw [replaceStr_miss (by simp [List.isPrefixOf, Ne.symm h]), replaceStr_quote s]; simp [h]

/-- Escaping the quotes of an escaped text is escaping with quotes, except for `'`. -/
theorem decode_quote : ∀ (q sp : Bool) (s : Str),
    Spec.decode (replaceStr t!"\"" t!"&quot;" (encodeHtml s q sp)) = s.map (encDec sp)
  | q, sp, [] => rfl
  | q, sp, c :: s => by
    have ih := decode_quote q sp s
    rw [replaceStr_quote] at ih ⊢
    simp only [encodeHtml, List.flatMap_cons, List.flatMap_append, List.map_cons] at ih ⊢
    rw [← ih]
    generalize List.flatMap _ (List.flatMap _ s) = t
    by_cases hq : c = '"' ∧ q = false
    · obtain ⟨rfl, rfl⟩ := hq
      have h1 : encChar false sp '"' = ['"'] := by cases sp <;> decide
      have h2 : encDec sp '"' = '"' := by cases sp <;> decide
      rw [h1, h2]
      simpa using decode_ref (readRef_quot t)
    · have : List.flatMap (fun c => if c = '"' then t!"&quot;" else [c]) (encChar q sp c) = encChar q sp c := by
        have hn : '"' ∉ encChar q sp c := by
          intro h
          have h1 := (mem_encChar h).2.2.1
          cases q with
          | true => simp at h1
          | false =>
            simp at hq
            unfold encChar at h
            repeat' split at h
            all_goals simp at h
            exact absurd h.symm hq
        generalize encChar q sp c = w at hn
        induction w with
        | nil => rfl
        | cons x w ih => simp at hn ⊢; simp [Ne.symm hn.1, ih hn.2]
      rw [this]
      exact decode_encChar q sp c t

/-- What is written for a value is a quoted string in the sense of HTML: the
delimiter does not occur inside, `<` and `>` do not occur at all. -/
theorem quoteattr_shape (v : Str) : ∃ (d : Char) (body : Str),
    quoteattr v = d :: body ++ [d] ∧ (d = '"' ∨ d = '\'') ∧ d ∉ body ∧ '<' ∉ body ∧ '>' ∉ body ∧
    Spec.decode body = v.map Spec.swapNewlines := by
  have hlt : ∀ c ∈ encodeHtml v false true, c ≠ '<' ∧ c ≠ '>' := by
    intro c hc
    obtain ⟨x, _, hx⟩ := List.mem_flatMap.1 hc
    exact ⟨(mem_encChar hx).1, (mem_encChar hx).2.1⟩
  have hd := decode_encodeHtml false true v
  rw [map_encDec_true] at hd
  unfold quoteattr
  simp only
  split
  · split
    · refine ⟨'"', replaceStr t!"\"" t!"&quot;" (encodeHtml v false true), rfl, .inl rfl, ?_, ?_, ?_,
        by rw [decode_quote, map_encDec_true]⟩
      all_goals
        rw [replaceStr_quote]
        intro h
        obtain ⟨x, hx, h⟩ := List.mem_flatMap.1 h
        have := hlt x hx
        split at h
        · simp at h
        · simp at h; subst h; simp_all
    · rename_i h; rw [contains_iff] at h
      exact ⟨'\'', _, rfl, .inr rfl, h, fun h => (hlt _ h).1 rfl, fun h => (hlt _ h).2 rfl, hd⟩
  · rename_i h; rw [contains_iff] at h
    exact ⟨'"', _, rfl, .inl rfl, h, fun h => (hlt _ h).1 rfl, fun h => (hlt _ h).2 rfl, hd⟩

/-- **C18** (for values without CR and LF). A written attribute value is enclosed in
quotes that do not occur inside, contains no `<` or `>`, and decodes to the value. -/
theorem C18_attribute_value_partial (v : Str) (hv : '\n' ∉ v ∧ '\r' ∉ v) : ∃ (d : Char) (body : Str),
    quoteattr v = d :: body ++ [d] ∧ (d = '"' ∨ d = '\'') ∧ d ∉ body ∧ '<' ∉ body ∧ '>' ∉ body ∧
    Spec.decode body = v := by
  obtain ⟨d, body, h1, h2, h3, h4, h5, h6⟩ := quoteattr_shape v
  refine ⟨d, body, h1, h2, h3, h4, h5, ?_⟩
  rw [h6]
  clear h1 h6
  induction v with
  | nil => rfl
  | cons c v ih =>
    simp at hv
    rw [List.map_cons, ih ⟨hv.1.2, hv.2.2⟩]
    congr 1
    simp [Spec.swapNewlines, Ne.symm hv.1.1, Ne.symm hv.2.1]

example : quoteattr t!"say \"it's\" <b>" = t!"\"say &quot;it's&quot; &lt;b&gt;\"" := by decide

/-- **C18 fails for newlines**: no quoting of the written value decodes to it. -/
theorem C18_negation : ∃ v : Str, ∀ (d : Char) (body : Str), quoteattr v = d :: body ++ [d] →
    Spec.decode body ≠ v := by
  refine ⟨t!"\n", ?_⟩
  intro d body h
  have h0 : quoteattr t!"\n" = t!"\"&#13;\"" := by decide
  rw [h0] at h
  have h1 : body = t!"&#13;" := by
    simp at h
    have h2 := congrArg List.dropLast h.2
    simpa using h2.symm
  rw [h1]; decide

/-! ## C19 -/

theorem takeWhile_all {p : Char → Bool} {w : Str} {x : Char} {t : Str} (hw : ∀ c ∈ w, p c = true)
    (hx : p x = false) : (w ++ x :: t).takeWhile p = w := by
  induction w with
  | nil => simp [hx]
  | cons c w ih => simp [hw c (by simp)]; exact ih (fun c hc => hw c (by simp [hc]))

theorem dropWhile_all {p : Char → Bool} {w : Str} {x : Char} {t : Str} (hw : ∀ c ∈ w, p c = true)
    (hx : p x = false) : (w ++ x :: t).dropWhile p = x :: t := by
  rw [dropWhile_append_of_all hw]; simp [hx]

theorem isSpace_iff (c : Char) : Spec.isSpace c = isWs c := by
  rw [Bool.eq_iff_iff]
  simp [Spec.isSpace, isWs, Spec.whiteSpace]; omega

theorem valid_not_end {c : Char} (h : isValidAttrChar c = true) : Spec.attrNameEnd c = false := by
  simp [isValidAttrChar] at h
  simp [Spec.attrNameEnd, isSpace_iff, h]

/-- Reading one written attribute. -/
theorem readAttrs_attr {n : Nat} {k v : Str} {t : Str} (hk : k ≠ []) (hv : k.all isValidAttrChar = true) :
    Spec.readAttrs (n + 2) (attrText (k, v) ++ t) = (Spec.readAttrs n t).map
      (fun r => ((k, v.map Spec.swapNewlines) :: r.1, r.2)) := by
  obtain ⟨d, body, h1, h2, h3, _, _, h6⟩ := quoteattr_shape v
  obtain ⟨c, k', rfl⟩ := List.exists_cons_of_ne_nil hk
  have hne : ∀ x ∈ c :: k', (!Spec.attrNameEnd x) = true := by
    intro x hx; rw [valid_not_end (List.all_eq_true.1 hv x hx)]; rfl
  have hc := valid_not_end (List.all_eq_true.1 hv c (by simp))
  simp [Spec.attrNameEnd] at hc
  have e : attrText (c :: k', v) ++ t = ' ' :: (((c :: k') ++ '=' :: (d :: (body ++ d :: t)))) := by
    simp [attrText, h1]
  rw [e, Spec.readAttrs]
  rw [if_neg (by decide), if_neg (by decide), if_pos (by decide)]
  rw [List.cons_append, Spec.readAttrs]
  rw [if_neg (by simp [hc]), if_neg (by simp [hc]), if_neg (by simp [hc])]
  have hq : (!Spec.attrNameEnd '=') = false := by decide
  rw [show c :: (k' ++ '=' :: (d :: (body ++ d :: t))) = (c :: k') ++ '=' :: (d :: (body ++ d :: t)) from rfl,
    dropWhile_all hne hq, takeWhile_all hne hq]
  have hb : ∀ x ∈ body, (x != d) = true := by
    intro x hx; simp; rintro rfl; exact h3 hx
  simp only
  rw [if_pos h2, dropWhile_all hb (by simp), takeWhile_all hb (by simp), h6]

/-- The attributes written into a tag are the ones with valid names. -/
theorem readAttrs_join {t : Str} {r : Bool × Str} : ∀ (attrs : List (Str × Str)) (n : Nat),
    (∀ a ∈ attrs, a.1 ≠ []) → Spec.readAttrs n t = some ([], r) →
    Spec.readAttrs (n + 2 * (attrs.filter (fun a => a.1.all isValidAttrChar)).length) (joinAttrs attrs ++ t) =
      some ((attrs.filter (fun a => a.1.all isValidAttrChar)).map
        (fun a => (a.1, a.2.map Spec.swapNewlines)), r)
  | [], n, _, h => by simpa [joinAttrs] using h
  | a :: attrs, n, hn, h => by
    have ih := readAttrs_join attrs n (fun b hb => hn b (by simp [hb])) h
    unfold joinAttrs at ih ⊢
    by_cases hv : a.1.all isValidAttrChar = true
    · simp only [List.filter_cons, hv, if_true, List.flatMap_cons, List.length_cons, List.map_cons]
      rw [show n + 2 * ((attrs.filter (fun a => a.1.all isValidAttrChar)).length + 1) =
        (n + 2 * (attrs.filter (fun a => a.1.all isValidAttrChar)).length) + 2 by omega]
      rw [List.append_assoc, show a = (a.1, a.2) from rfl, readAttrs_attr (hn a (by simp)) hv, ih]
      rfl
    · simp only [List.filter_cons, hv]
      exact ih

theorem readAttrs_mono : ∀ (n m : Nat) (t : Str) (x), n ≤ m → Spec.readAttrs n t = some x →
    Spec.readAttrs m t = some x
  | 0, _, _, _, _, h => by simp [Spec.readAttrs] at h
  | n + 1, 0, _, _, hm, _ => by omega
  | n + 1, m + 1, [], _, _, h => by simp [Spec.readAttrs] at h
  | n + 1, m + 1, c :: t, x, hm, h => by
    rw [Spec.readAttrs] at h ⊢
    split at h
    · rename_i hc; rw [if_pos hc]; exact h
    · rename_i hc; rw [if_neg hc]
      split at h
      · rename_i hc; rw [if_pos hc]; exact h
      · rename_i hc; rw [if_neg hc]
        split at h
        · rename_i hc; rw [if_pos hc]; exact readAttrs_mono n m t x (by omega) h
        · rename_i hc; rw [if_neg hc]
          split at h
          · rename_i d u hd
            split at h
            · rename_i hq; rw [if_pos hq]
              split at h
              · simp at h
              · rename_i y r hy
                simp only
                cases hr : Spec.readAttrs n r with
                | none => simp [hr] at h
                | some z => rw [readAttrs_mono n m r z (by omega) hr]; rw [hr] at h; exact h
            · simp at h
          · simp at h

theorem attrText_length (a : Str × Str) : 2 ≤ (attrText a).length := by
  simp [attrText]; omega

theorem joinAttrs_length (attrs : List (Str × Str)) :
    2 * (attrs.filter (fun a => a.1.all isValidAttrChar)).length ≤ (joinAttrs attrs).length := by
  unfold joinAttrs
  generalize attrs.filter _ = l
  induction l with
  | nil => simp
  | cons a l ih => have := attrText_length a; simp at ih ⊢; omega

/-- What `alphanumeric` has to mean: no white space, no `/`, no `>` (true of
`char::is_alphanumeric`). -/
def AlnumOk (U : Uni) : Prop := ∀ c, U.isAlnum c = true → Spec.tagNameEnd c = false

/-- **C19.** A generated element whose name is alphanumeric is, read by the rules of
HTML, a start tag with that name whose attributes are exactly the given ones with
valid names, in the given order, with their values (CR and LF exchanged, see C17);
the rest is the content and the end tag of the same name.  Without content it is a
self-closing tag and nothing else. -/
theorem C19_tag (U : Uni) (hU : AlnumOk U) (tag : Str) (content : Option Str) (attrs : List (Str × Str))
    (ht : tag ≠ []) (ha : ∀ c ∈ tag, U.isAlnum c = true) (hn : ∀ a ∈ attrs, a.1 ≠ []) :
    Spec.readTag (generateTag U tag content attrs) = some (tag,
      (attrs.filter (fun a => a.1.all isValidAttrChar)).map (fun a => (a.1, a.2.map Spec.swapNewlines)),
      match content with
      | some text => (false, text ++ t!"</" ++ tag ++ t!">")
      | none => (true, [])) := by
  unfold generateTag
  rw [if_neg (by simp [ht]), if_neg (by simpa using ha)]
  have hne : ∀ c ∈ tag, (!Spec.tagNameEnd c) = true := by
    intro c hc; rw [hU c (ha c hc)]; rfl
  have key : ∀ (tail : Str) (r : Bool × Str) (n : Nat), n ≤ tail.length →
      Spec.readAttrs n tail = some ([], r) →
      (∃ x t', joinAttrs attrs ++ tail = x :: t' ∧ (!Spec.tagNameEnd x) = false) →
      Spec.readTag ('<' :: (tag ++ (joinAttrs attrs ++ tail))) = some (tag,
        (attrs.filter (fun a => a.1.all isValidAttrChar)).map (fun a => (a.1, a.2.map Spec.swapNewlines)), r) := by
    intro tail r n hl h ⟨x, t', hx, hx'⟩
    have h1 := readAttrs_join attrs n hn h
    have h2 := joinAttrs_length attrs
    rw [Spec.readTag, hx, takeWhile_all hne hx', dropWhile_all hne hx', ← hx]
    rw [readAttrs_mono _ _ _ _ ?_ h1]
    · rfl
    · rw [List.length_append, List.length_append]; omega
  have hstart : ∀ tail : Str, (∃ x t', tail = x :: t' ∧ (!Spec.tagNameEnd x) = false) →
      ∃ x t', joinAttrs attrs ++ tail = x :: t' ∧ (!Spec.tagNameEnd x) = false := by
    intro tail ht
    unfold joinAttrs
    generalize attrs.filter _ = l
    cases l with
    | nil => exact ht
    | cons a l => exact ⟨' ', _, rfl, by decide⟩
  cases content with
  | none =>
    have := key t!" />" (true, []) 2 (by simp) (by decide) (hstart _ ⟨' ', _, rfl, by decide⟩)
    simpa using this
  | some text =>
    have := key (t!">" ++ text ++ t!"</" ++ tag ++ t!">") (false, text ++ t!"</" ++ tag ++ t!">") 1
      (by simp) (by simp [Spec.readAttrs]) (hstart _ ⟨'>', _, rfl, by decide⟩)
    simpa using this

/-- The attributes with valid names are the ones an HTML reader would accept as a
whole name. -/
theorem C19_valid_names (c : Char) (h : isValidAttrChar c = true) :
    Spec.attrNameEnd c = false ∧ c ≠ '"' ∧ c ≠ '\'' := by
  refine ⟨valid_not_end h, ?_, ?_⟩ <;> (rintro rfl; revert h; decide)

example : AlnumOk demoUni := by
  intro c h
  simp [demoUni, isUp, isLow, isDig] at h
  simp [Spec.tagNameEnd, isSpace_iff, isWs]
  refine ⟨⟨?_, ?_⟩, ?_⟩
  · omega
  · rintro rfl; simp at h
  · rintro rfl; simp at h

example : Spec.readTag (generateTag demoUni t!"a" (some t!"x") [(t!"href", t!"b\"><i"), (t!"o n", t!"1")]) =
    some (t!"a", [(t!"href", t!"b\"><i")], false, t!"x</a>") := by decide

/-! ## C20 -/

theorem strLt_iff : ∀ {a b : Str}, strLt a b = true ↔ Spec.Before a b
  | [], [] => by simp [strLt, Spec.Before]
  | _ :: _, [] => by simp [strLt, Spec.Before]
  | [], _ :: _ => by simp [strLt, Spec.Before]
  | a :: as, b :: bs => by
    have ih := strLt_iff (a := as) (b := bs)
    simp only [strLt, Spec.Before]
    by_cases h1 : a.toNat < b.toNat
    · simp [h1]
    · by_cases h2 : b.toNat < a.toNat
      · have h3 : a ≠ b := by rintro rfl; omega
        simp [h1, h2, h3]
      · have h3 : a = b := Char.toNat_inj.1 (by omega)
        subst h3
        simp [ih]

theorem before_trichotomy : ∀ (a b : Str), Spec.Before a b ∨ a = b ∨ Spec.Before b a
  | [], [] => by simp
  | _ :: _, [] => by simp [Spec.Before]
  | [], _ :: _ => by simp [Spec.Before]
  | a :: as, b :: bs => by
    have ih := before_trichotomy as bs
    simp only [Spec.Before]
    by_cases h1 : a.toNat < b.toNat
    · simp [h1]
    · by_cases h2 : b.toNat < a.toNat
      · simp [h2]
      · have h3 : a = b := Char.toNat_inj.1 (by omega)
        subst h3
        simpa using ih

theorem before_irrefl : ∀ (a : Str), ¬ Spec.Before a a
  | [] => by simp [Spec.Before]
  | a :: as => by simp [Spec.Before, before_irrefl as]

theorem before_trans : ∀ {a b c : Str}, Spec.Before a b → Spec.Before b c → Spec.Before a c
  | _, [], _, h, _ => by simp [Spec.Before] at h
  | _, _ :: _, [], _, h => by simp [Spec.Before] at h
  | [], _ :: _, _ :: _, _, _ => by simp [Spec.Before]
  | a :: as, b :: bs, c :: cs, h1, h2 => by
    simp only [Spec.Before] at h1 h2 ⊢
    rcases h1 with h1 | ⟨rfl, h1⟩
    · rcases h2 with h2 | ⟨rfl, _⟩
      · exact .inl (by omega)
      · exact .inl h1
    · rcases h2 with h2 | ⟨rfl, h2⟩
      · exact .inl h2
      · exact .inr ⟨rfl, before_trans h1 h2⟩

theorem sorted_cons_insert {β : Type} {a : Str × β} {k : Str} {v : β} : ∀ {l : List (Str × β)},
    Spec.SortedNames (a :: l) → Spec.Before a.1 k → Spec.SortedNames (btInsert k v l) →
    Spec.SortedNames (a :: btInsert k v l)
  | [], _, hk, _ => ⟨hk, trivial⟩
  | b :: l, h, hk, hs => by
    unfold btInsert at hs ⊢
    split
    · rename_i he; rw [if_pos he] at hs; exact ⟨h.1, hs⟩
    · rename_i he; rw [if_neg he] at hs
      split
      · rename_i hl; rw [if_pos hl] at hs; exact ⟨hk, hs⟩
      · rename_i hl; rw [if_neg hl] at hs; exact ⟨h.1, hs⟩

theorem sorted_tail {β : Type} {a : Str × β} {l : List (Str × β)} (h : Spec.SortedNames (a :: l)) :
    Spec.SortedNames l := by
  cases l with
  | nil => trivial
  | cons b l => exact h.2

theorem btInsert_sorted {β : Type} (k : Str) (v : β) : ∀ {l : List (Str × β)}, Spec.SortedNames l →
    Spec.SortedNames (btInsert k v l)
  | [], _ => trivial
  | a :: l, h => by
    have ih := btInsert_sorted k v (sorted_tail h)
    rw [btInsert]
    split
    · rename_i he
      cases l with
      | nil => trivial
      | cons b l => exact ⟨h.1, h.2⟩
    · rename_i he
      split
      · rename_i hl; exact ⟨strLt_iff.1 hl, h⟩
      · rename_i hl
        have hb : Spec.Before a.1 k := by
          rcases before_trichotomy a.1 k with hb | hb | hb
          · exact hb
          · exact absurd hb he
          · exact absurd (strLt_iff.2 hb) hl
        exact sorted_cons_insert h hb ih

theorem btInsert_lookup {β : Type} (k k' : Str) (v : β) : ∀ (l : List (Str × β)),
    alLookup k' (btInsert k v l) = if k = k' then some v else alLookup k' l
  | [] => by simp [btInsert, alLookup]
  | a :: l => by
    have ih := btInsert_lookup k k' v l
    rw [btInsert]
    split
    · rename_i he
      by_cases hk : k = k'
      · simp [alLookup, he, hk]
      · simp [alLookup, he, hk]
    · rename_i he
      split
      · simp [alLookup]
      · simp only [alLookup, ih]
        by_cases hk : k = k'
        · subst hk; simp [he]
        · simp [hk]

theorem lookup_before {β : Type} {k : Str} {a : Str × β} : ∀ {l : List (Str × β)}, Spec.SortedNames (a :: l) →
    (k = a.1 ∨ Spec.Before k a.1) → alLookup k l = none
  | [], _, _ => rfl
  | b :: l, h, hk => by
    have hb : Spec.Before k b.1 := by
      rcases hk with rfl | hk
      · exact h.1
      · exact before_trans hk h.1
    rw [alLookup, if_neg (by rintro rfl; exact before_irrefl _ hb)]
    exact lookup_before h.2 (.inr hb)

/-- Two sorted association lists with the same values are equal. -/
theorem sorted_ext {β : Type} : ∀ {l m : List (Str × β)}, Spec.SortedNames l → Spec.SortedNames m →
    (∀ k, alLookup k l = alLookup k m) → l = m
  | [], [], _, _, _ => rfl
  | [], b :: m, _, _, h => by have := h b.1; simp [alLookup] at this
  | a :: l, [], _, _, h => by have := h a.1; simp [alLookup] at this
  | a :: l, b :: m, hl, hm, h => by
    have hab : a.1 = b.1 := by
      rcases before_trichotomy a.1 b.1 with hb | hb | hb
      · have h1 := h a.1
        rw [alLookup, if_pos rfl, alLookup, if_neg (by intro e; rw [e] at hb; exact before_irrefl _ hb),
          lookup_before hm (.inr hb)] at h1
        simp at h1
      · exact hb
      · have h1 := h b.1
        rw [alLookup, if_neg (by intro e; rw [e] at hb; exact before_irrefl _ hb),
          lookup_before hl (.inr hb), alLookup, if_pos rfl] at h1
        simp at h1
    have h1 := h a.1
    rw [alLookup, if_pos rfl, alLookup, if_pos hab.symm] at h1
    have e : a = b := Prod.ext hab (by simpa using h1)
    subst e
    congr 1
    refine sorted_ext (sorted_tail hl) (sorted_tail hm) ?_
    intro k
    by_cases hk : a.1 = k
    · rw [lookup_before hl (.inl hk.symm), lookup_before hm (.inl hk.symm)]
    · have := h k
      rwa [alLookup, if_neg hk, alLookup, if_neg hk] at this

/-- The attribute set after a sequence of insertions. -/
def attrsAfter (ops : List (Str × Str)) : HtmlAttrs :=
  ops.foldl (fun a o => HtmlAttrs.insert o.1 o.2 a) []

/-- The value of the last insertion under a name. -/
def lastValue (k : Str) (ops : List (Str × Str)) : Option Str :=
  (ops.reverse.find? (fun o => o.1 == k)).map (·.2)

/-- **C20.** After any sequence of insertions: the names are in strictly increasing
order (so none occurs twice), and each name has the value inserted last. -/
theorem C20_attributes (ops : List (Str × Str)) :
    Spec.SortedNames (attrsAfter ops) ∧ ∀ k, alLookup k (attrsAfter ops) = lastValue k ops := by
  have gen : ∀ (ops : List (Str × Str)) (a : HtmlAttrs), Spec.SortedNames a →
      Spec.SortedNames (ops.foldl (fun a o => HtmlAttrs.insert o.1 o.2 a) a) ∧
      ∀ k, alLookup k (ops.foldl (fun a o => HtmlAttrs.insert o.1 o.2 a) a) =
        ((ops.reverse.find? (fun o => o.1 == k)).map (·.2)).or (alLookup k a) := by
    intro ops
    induction ops with
    | nil => intro a ha; exact ⟨ha, by simp⟩
    | cons o ops ih =>
      intro a ha
      obtain ⟨h1, h2⟩ := ih (HtmlAttrs.insert o.1 o.2 a) (btInsert_sorted _ _ ha)
      refine ⟨h1, ?_⟩
      intro k
      rw [List.foldl_cons, h2 k, HtmlAttrs.insert, btInsert_lookup]
      simp only [List.reverse_cons, List.find?_append]
      cases ops.reverse.find? (fun o => o.1 == k) with
      | some p => simp
      | none =>
        by_cases hk : o.1 = k
        · simp [hk]
        · simp [hk]
  obtain ⟨h1, h2⟩ := gen ops [] trivial
  refine ⟨h1, fun k => ?_⟩
  rw [attrsAfter, h2 k, lastValue]; simp [alLookup]

/-- **C20**, order: sequences of insertions with the same last values give the same
written attributes. -/
theorem C20_order (ops ops' : List (Str × Str)) (h : ∀ k, lastValue k ops = lastValue k ops') :
    HtmlAttrs.toStr (attrsAfter ops) = HtmlAttrs.toStr (attrsAfter ops') := by
  obtain ⟨h1, h2⟩ := C20_attributes ops
  obtain ⟨h3, h4⟩ := C20_attributes ops'
  rw [sorted_ext h1 h3 (fun k => by rw [h2, h4, h])]

/-- **C20**, classes: adding a class keeps the classes that are there (the new one is
appended, or nothing changes when it is not a class name), and touches nothing else. -/
theorem C20_css_class (U : Uni) (name : Str) (a : HtmlAttrs) :
    (∀ old, alLookup t!"class" a = some old →
      ∃ suffix, alLookup t!"class" (HtmlAttrs.insertCssClass U name a) = some (old ++ suffix)) ∧
    (∀ k, k ≠ t!"class" → alLookup k (HtmlAttrs.insertCssClass U name a) = alLookup k a) ∧
    (CSS_CLASS_NAME_RE.isMatch U (trim name) = true →
      ∃ pre, alLookup t!"class" (HtmlAttrs.insertCssClass U name a) = some (pre ++ trim name)) := by
  refine ⟨?_, ?_, ?_⟩
  · intro old h
    unfold HtmlAttrs.insertCssClass
    simp only
    split
    · rw [h]; simp only [btInsert_lookup, if_true]
      exact ⟨t!" " ++ trim name, by simp⟩
    · exact ⟨[], by simpa using h⟩
  · intro k hk
    unfold HtmlAttrs.insertCssClass
    simp only
    split
    · split <;> rw [btInsert_lookup, if_neg (Ne.symm hk)]
    · rfl
  · intro hm
    unfold HtmlAttrs.insertCssClass
    simp only [hm, if_true]
    split
    · rename_i old _
      exact ⟨old ++ t!" ", by rw [btInsert_lookup, if_pos rfl]⟩
    · exact ⟨[], by rw [btInsert_lookup, if_pos rfl]; rfl⟩

example : HtmlAttrs.toStr (HtmlAttrs.insertCssClass demoUni t!" b " (attrsAfter [(t!"id", t!"x"), (t!"class", t!"a"), (t!"id", t!"y")]))
    = t!" class=\"a b\" id=\"y\"" := by decide +kernel

end Rustextile
