import Verif.Split
import Verif.Props.Html
import Verif.RegexSimp

/-!
# Image probe, splitting, URLs, counters: C31, C42, C44, C48
-/

namespace Rustextile

open Spec

/-! ## C31 -/

/-- All the data a server is ready to send before the first error. -/
def offered : List ReadEvent → List UInt8
  | [] => []
  | .err :: _ => []
  | .data d :: t => d ++ offered t

theorem probeLoop_spec (info : List UInt8 → Option (Int × Int)) : ∀ (es : List ReadEvent) (buf : List UInt8) (n : Nat),
    buf.length ≤ 1024 →
    (probeLoop info es buf n).read.length ≤ 1024 ∧
    n < (probeLoop info es buf n).calls ∧
    (probeLoop info es buf n).calls ≤ n + 1025 - buf.length ∧
    buf <+: (probeLoop info es buf n).read ∧
    (∀ s, (probeLoop info es buf n).size = some s → info (probeLoop info es buf n).read = some s)
  | [], buf, n, h => by simp [probeLoop]; omega
  | .err :: es, buf, n, h => by simp [probeLoop]; omega
  | .data d :: es, buf, n, h => by
    rw [probeLoop]
    split
    · refine ⟨h, by simp, by simp; omega, by simp, by simp⟩
    · rename_i hg
      have hl : 0 < (d.take (MAX_IMAGE_CHUNK - buf.length)).length :=
        List.length_pos_iff.2 (by simpa using hg)
      have hu : (d.take (MAX_IMAGE_CHUNK - buf.length)).length ≤ 1024 - buf.length := by
        rw [List.length_take]; exact Nat.min_le_left _ _
      generalize d.take (MAX_IMAGE_CHUNK - buf.length) = got at *
      split
      · rename_i s hs
        refine ⟨by simp; omega, by simp, by simp; omega, by simp, ?_⟩
        intro s' h'; simp at h'; subst h'; exact hs
      · obtain ⟨h1, h2, h3, h4, h5⟩ := probeLoop_spec info es (buf ++ got) (n + 1) (by simp; omega)
        refine ⟨h1, by omega, by simp at h3; omega, ?_, h5⟩
        exact (List.prefix_append buf got).trans h4

/-- **C31.** Whatever the server does, a probe makes at most 1025 read calls, keeps at
most 1024 bytes, and returns a size only if the bytes read are recognised as an image
of that size. -/
theorem C31_probe (info : List UInt8 → Option (Int × Int)) (conn : Option (List ReadEvent)) :
    (getImageSize info conn).read.length ≤ 1024 ∧ (getImageSize info conn).calls ≤ 1025 ∧
    (∀ s, (getImageSize info conn).size = some s → info (getImageSize info conn).read = some s) := by
  cases conn with
  | none => simp [getImageSize]
  | some es =>
    obtain ⟨h1, _, h3, _, h5⟩ := probeLoop_spec info es [] 0 (by simp)
    exact ⟨h1, by simpa [getImageSize] using h3, h5⟩

/-- The bytes a probe has read are a prefix of what the server sent, truncated to
1024 bytes. -/
theorem probeLoop_prefix (info : List UInt8 → Option (Int × Int)) : ∀ (es : List ReadEvent) (buf : List UInt8) (n : Nat),
    buf.length ≤ 1024 →
    (probeLoop info es buf n).read <+: (buf ++ offered es)
  | [], buf, n, h => by simp [probeLoop, offered]
  | .err :: es, buf, n, h => by simp [probeLoop, offered]
  | .data d :: es, buf, n, h => by
    rw [probeLoop]
    split
    · simp
    · rename_i hg
      have hp : buf ++ d.take (MAX_IMAGE_CHUNK - buf.length) <+: buf ++ offered (.data d :: es) :=
        List.prefix_append_right_inj _ |>.2 ((List.take_prefix _ _).trans (List.prefix_append _ _))
      split
      · exact hp
      · rename_i hi
        by_cases hc : d.length ≤ MAX_IMAGE_CHUNK - buf.length
        · have := probeLoop_prefix info es (buf ++ d) (n + 1)
            (by simp [MAX_IMAGE_CHUNK] at hc ⊢; omega)
          rw [List.take_of_length_le hc]
          simpa [offered] using this
        · -- the buffer is full: the next call reads nothing
          have hfull : (buf ++ d.take (MAX_IMAGE_CHUNK - buf.length)).length = 1024 := by
            simp [MAX_IMAGE_CHUNK] at hc ⊢; omega
          generalize buf ++ d.take (MAX_IMAGE_CHUNK - buf.length) = b at *
          have : (probeLoop info es b (n + 1)).read = b := by
            cases es with
            | nil => rfl
            | cons e es =>
              cases e with
              | err => rfl
              | data d' => simp [probeLoop, hfull, MAX_IMAGE_CHUNK]
          rw [this]; exact hp

/-- **C31**, data: the bytes kept are a prefix of the bytes the server sent. -/
theorem C31_prefix (info : List UInt8 → Option (Int × Int)) (es : List ReadEvent) :
    (getImageSize info (some es)).read <+: offered es := by
  simpa [getImageSize] using probeLoop_prefix info es [] 0 (by simp)

/-- A server that sends two chunks; the image is recognised after the second. -/
example : (getImageSize (fun b => if b.length = 3 then some (4, 5) else none)
    (some [.data [1, 2], .data [3], .err])).size = some (4, 5) := by decide

/-! ## C42 -/

/-- Every group takes part in a match. -/
def Full (n : Nat) (m : Mat) : Prop := ∀ i, i < n → m.get? (i + 1) ≠ none

/-- The iterator, from the moment it has yielded the gap of a match and `i` of its
groups. -/
theorem collect_groups (n : Nat) (m : Mat) (hm : Full n m) (ms : List Mat) (tail : Str) (f : Nat) :
    ∀ (k i : Nat), i + k = n → 0 < k →
    SplitIter.collect (n + 1) (f + k) ⟨ms, tail, some m, false, false, i + 1⟩ =
      (SplitIter.collect (n + 1) f ⟨ms, tail, some m, true, false, n + 1⟩).map
        ((List.range' i k).map (fun j => m.grp (j + 1)) ++ ·)
  | 0, _, _, h => by omega
  | k + 1, i, hik, _ => by
    rw [← Nat.add_assoc, SplitIter.collect, SplitIter.next]
    obtain ⟨g, hg⟩ := Option.ne_none_iff_exists'.1 (hm i (by omega))
    have hgr : m.grp (i + 1) = g := by simp [Mat.grp, hg]
    simp only [hg, Bool.false_eq_true, if_false]
    by_cases hk : k = 0
    · subst hk
      have : i + 1 + 1 = n + 1 := by omega
      simp [this, hgr]
    · have hne : (i + 1 + 1 == n + 1) = false := by simp; omega
      simp only [hne, Bool.false_eq_true, if_false]
      rw [collect_groups n m hm ms tail f k (i + 1) (by omega) (by omega)]
      simp [List.range'_succ, hgr, Function.comp_def]

theorem collect_all (n : Nat) (tail : Str) : ∀ (ms : List Mat) (lm : Option Mat) (i : Nat),
    (∀ m ∈ ms, Full n m) →
    ∀ f, ms.length * (n + 1) + 2 ≤ f →
    SplitIter.collect (n + 1) f ⟨ms, tail, lm, true, false, i⟩ =
      some ((ms.flatMap (fun m => m.gap :: (List.range n).map (fun i => m.grp (i + 1)))) ++ [tail])
  | [], lm, i, _, f, hf => by
    obtain ⟨f, rfl⟩ : ∃ g, f = g + 2 := ⟨f - 2, by simp at hf; omega⟩
    simp [SplitIter.collect, SplitIter.next]
  | m :: ms, lm, i, h4, f, hf => by
    obtain ⟨f, rfl⟩ : ∃ g, f = g + n + 1 := ⟨f - (n + 1), by simp [Nat.add_mul] at hf; omega⟩
    have hf' : ms.length * (n + 1) + 2 ≤ f := by simp [Nat.add_mul] at hf ⊢; omega
    rw [SplitIter.collect, SplitIter.next]
    simp only [List.head?_cons, List.tail_cons, Bool.false_eq_true, if_false, if_true]
    have ih := fun i => collect_all n tail ms (some m) i (fun m hm => h4 m (by simp [hm])) f hf'
    by_cases hn : n = 0
    · subst hn
      simp only [Nat.add_zero, Nat.zero_add, beq_self_eq_true] at ih ⊢
      rw [ih]
      simp
    · have hb : (n + 1 == 1) = false := by simp [hn]
      rw [hb, collect_groups n m (h4 m (by simp)) ms tail f n 0 (by omega) (by omega), ih]
      simp [List.range_eq_range']

/-- **C42.** Splitting ends; when all groups of the pattern take part in the matches it
does not panic, and it yields the text between the matches, each piece followed by
the captured groups of the match after it; pieces and matches put together give the
text. -/
theorem C42_split (U : Uni) (r : Re) (n : Nat) (text : Str)
    (hf : ∀ m ∈ (r.matches U text).1, Full n m) :
    ∃ (fuel : Nat) (ms : List Mat) (tail : Str),
      (splitIter U r text).collect (n + 1) fuel =
        some ((ms.flatMap (fun m => m.gap :: (List.range n).map (fun i => m.grp (i + 1)))) ++ [tail]) ∧
      text = (ms.map (fun m => m.gap ++ m.whole)).flatten ++ tail :=
  ⟨_, _, _, collect_all n _ _ _ _ hf _ (Nat.le_refl _),
    (Re.matches_concat U r text).symm⟩

/-- The model's `split` is what the iterator yields. -/
theorem split_refines (U : Uni) (r : Re) (n : Nat) (text : Str)
    (hf : ∀ m ∈ (r.matches U text).1, Full n m) :
    ∃ fuel, (splitIter U r text).collect (n + 1) fuel = some (r.split U n text) :=
  ⟨_, collect_all n _ _ _ _ hf _ (Nat.le_refl _)⟩

/-- The captures of every match come from a possible match of the pattern. -/
theorem segs_mem {U : Uni} {r : Re} : ∀ (f : Str) (b : Bool) (gs cur : Cur) (m : Mat),
    m ∈ (segs U r f b gs cur).1 → ∃ c e, (e, m.caps) ∈ r.all U c [] ∧ m.whole = between c e := by
  intro f
  induction f with
  | nil => intro b gs cur m h; simp [segs] at h
  | cons x f ih =>
    intro b gs cur m h
    rw [segs] at h
    cases hs : r.search U cur.pre cur.rest with
    | none => simp [hs] at h
    | some q =>
      obtain ⟨c, e, caps⟩ := q
      obtain ⟨_, _, _, hm⟩ := Re.search_inv hs
      have hthis : (e, caps) ∈ r.all U c [] := Re.matchAt_mem hm
      simp only [hs] at h
      split at h
      · split at h
        · split at h
          · simp at h
          · exact ih _ _ _ _ h
        · split at h
          · simp at h; subst h; exact ⟨c, e, hthis, rfl⟩
          · rcases List.mem_cons.1 h with rfl | h
            · exact ⟨c, e, hthis, rfl⟩
            · exact ih _ _ _ _ h
      · rcases List.mem_cons.1 h with rfl | h
        · exact ⟨c, e, hthis, rfl⟩
        · exact ih _ _ _ _ h

theorem matches_mem {U : Uni} {r : Re} {text : Str} {m : Mat} (h : m ∈ (r.matches U text).1) :
    ∃ c e, (e, m.caps) ∈ r.all U c [] ∧ m.whole = between c e := segs_mem _ _ _ _ m h

/-- Group 1 of a pattern that is a group as a whole is the whole match. -/
theorem grp_one {U : Uni} {r : Re} {text : Str} {m : Mat} (h : m ∈ ((Re.grp 1 r).matches U text).1) :
    m.get? 1 = some m.whole := by
  obtain ⟨c, e, h1, h2⟩ := matches_mem h
  obtain ⟨c', s', h3, h4⟩ := mem_grp.1 h1
  simp only [Prod.mk.injEq] at h4
  simp [Mat.get?, h4.2, alLookup, h2, h4.1]

/-- **C42**, captured delimiters: if the pattern captures the whole delimiter, the
pieces put together are the text. -/
theorem C42_captured (U : Uni) (r : Re) (text : Str) :
    ∃ fuel items, (splitIter U (.grp 1 r) text).collect 2 fuel = some items ∧ items.flatten = text := by
  have hf : ∀ m ∈ ((Re.grp 1 r).matches U text).1, Full 1 m := by
    intro m hm i hi
    have : i = 0 := by omega
    subst this
    rw [grp_one hm]; simp
  obtain ⟨fuel, h⟩ := split_refines U (.grp 1 r) 1 text hf
  refine ⟨fuel, _, h, ?_⟩
  have hc := Re.matches_concat U (.grp 1 r) text
  have hg : ∀ m ∈ ((Re.grp 1 r).matches U text).1, m.grp 1 = m.whole := by
    intro m hm; simp [Mat.grp, grp_one hm]
  unfold Re.split
  simp only
  revert hc hg
  generalize (Re.matches U (Re.grp 1 r) text).2 = tl
  generalize (Re.matches U (Re.grp 1 r) text).1 = ms
  intro hc hg
  rw [← hc]
  simp only [List.flatten_append, List.flatten_cons, List.flatten_nil, List.append_nil]
  congr 1
  clear h hc
  induction ms with
  | nil => rfl
  | cons m ms ih =>
    simp only [List.flatMap_cons, List.flatten_append, List.map_cons, List.flatten_cons]
    rw [ih (fun x hx => hg x (by simp [hx]))]
    simp [hg m (by simp)]

/-- The two splitters of the crate that capture the delimiter have that form: the one
separating blocks and the one separating tags. -/
example : (∃ r, MULTI_ENDLINE_RE = .grp 1 r) ∧ (∃ r, GLYPH_SPLIT_RE = .grp 1 r) := ⟨⟨_, rfl⟩, ⟨_, rfl⟩⟩

example : (splitIter demoUni MULTI_ENDLINE_RE t!"a\n\nb\nc\n\n\n").collect 2 10 =
    some [t!"a", t!"\n\n", t!"b\nc", t!"\n\n\n", t!""] := by decide +kernel

/-! ## C44 -/

/-- The part of a URL before the query and the fragment. -/
def urlPath (u : Str) : Str := u.takeWhile (fun c => c != '?' && c != '#')

theorem splitOnce_spec {d : Char} : ∀ {s a b : Str}, splitOnce d s = some (a, b) → s = a ++ d :: b
  | [], _, _, h => by simp [splitOnce] at h
  | c :: s, a, b, h => by
    rw [splitOnce] at h
    split at h
    · rename_i hc; simp at h hc; obtain ⟨rfl, rfl⟩ := h; simp [hc]
    · cases hs : splitOnce d s with
      | none => simp [hs] at h
      | some q =>
        simp [hs] at h
        have := splitOnce_spec (a := q.1) (b := q.2) hs
        rw [← h.1, ← h.2, this]; simp

theorem rfindChar_spec {d : Char} {s a b : Str} (h : rfindChar d s = some (a, b)) : s = a ++ d :: b := by
  unfold rfindChar at h
  cases hs : splitOnce d s.reverse with
  | none => simp [hs] at h
  | some q =>
    simp [hs] at h
    have := splitOnce_spec (a := q.1) (b := q.2) hs
    have h2 := congrArg List.reverse this
    simp at h2
    rw [h2, ← h.1, ← h.2]

theorem urlPath_stop {a b b' : Str} {d : Char} (hd : d = '?' ∨ d = '#') :
    urlPath (a ++ d :: b) = urlPath (a ++ d :: b') ∧ urlPath (a ++ d :: b) = urlPath a := by
  have h0 : (d != '?' && d != '#') = false := by rcases hd with rfl | rfl <;> decide
  unfold urlPath
  induction a with
  | nil => simp [h0]
  | cons c a ih =>
    simp only [List.cons_append, List.takeWhile_cons]
    split
    · exact ⟨by rw [ih.1], by rw [ih.2]⟩
    · exact ⟨rfl, rfl⟩

/-- **C44.** A relative URL is written with the path it was given, whatever the URL
library makes of it. -/
theorem C44_relative_path (E : Env) (url j : Str) (hp : E.urlParse url = none) (hj : E.urlJoin url = some j) :
    urlPath (UrlBits.parse E url).toStr = urlPath url := by
  have : UrlBits.parse E url = .rel j url := by simp [UrlBits.parse, hp, hj]
  rw [this]
  unfold UrlBits.toStr
  simp only
  split
  · rename_i x uq sp y h1 h2
    have := splitOnce_spec h2
    rw [this]
    simp only [List.append_assoc, List.singleton_append]
    exact (urlPath_stop (.inl rfl)).1
  · split
    · rename_i h1 h2
      have := rfindChar_spec h2
      rw [this]
      simp only [List.append_assoc, List.singleton_append]
      exact (urlPath_stop (.inr rfl)).1
    · rename_i h1 h2
      have := rfindChar_spec h2
      rw [this]
      exact (urlPath_stop (b' := []) (.inr rfl)).2.symm
    · rfl

example : demoEnv.urlParse t!"../a b?x#y" = none ∧ demoEnv.urlJoin t!"../a b?x#y" ≠ none ∧
    urlPath t!"../a b?x#y" = t!"../a b" := by decide

/-- An upper case hexadecimal digit, as `hexDigit` writes it. -/
theorem hexValue_hexDigit : ∀ n, n < 16 → hexValue (hexDigit n) = n ∧ hexDigit n ≠ '%' ∧
    hexDigit n ≠ '?' ∧ hexDigit n ≠ '#' := by decide

theorem utf8Bytes_lt (c : Char) : ∀ b ∈ utf8Bytes c, b < 256 := by
  have h := c.valid
  have hc : c.toNat < 0x110000 := by
    have : c.toNat = c.val.toNat := rfl
    rcases h with h | ⟨_, h⟩ <;> omega
  intro b hb
  unfold utf8Bytes at hb
  simp only at hb
  split at hb
  · simp at hb; omega
  · split at hb
    · simp at hb; omega
    · split at hb
      · simp at hb; omega
      · simp at hb; omega

theorem percentBytes_triplet {b : Nat} (hb : b < 256) (t : Text) :
    percentBytes ('%' :: hexDigit (b / 16) :: hexDigit (b % 16) :: t) = b :: percentBytes t := by
  rw [percentBytes, (hexValue_hexDigit (b / 16) (by omega)).1, (hexValue_hexDigit (b % 16) (by omega)).1]
  congr 1; omega

theorem percentBytes_triplets : ∀ (bs : List Nat), (∀ b ∈ bs, b < 256) → ∀ t : Text,
    percentBytes (bs.flatMap (fun b => ['%', hexDigit (b / 16), hexDigit (b % 16)]) ++ t) = bs ++ percentBytes t
  | [], _, t => rfl
  | b :: bs, h, t => by
    simp only [List.flatMap_cons, List.cons_append, List.nil_append]
    rw [percentBytes_triplet (h b (by simp)), percentBytes_triplets bs (fun x hx => h x (by simp [hx]))]

theorem utf8Codes_char (c : Char) (t : List Nat) :
    utf8Codes 0 0 (utf8Bytes c ++ t) = c.toNat :: utf8Codes 0 0 t := by
  have h := c.valid
  have hc : c.toNat < 0x110000 := by
    have : c.toNat = c.val.toNat := rfl
    rcases h with h | ⟨_, h⟩ <;> omega
  unfold utf8Bytes
  simp only
  generalize c.toNat = n at hc ⊢
  split
  · rename_i h1; simp [utf8Codes, h1]
  · split
    · rename_i h1 h2
      have e1 : ¬ (0xC0 + n / 64 < 0x80) := by omega
      have e2 : 0xC0 + n / 64 < 0xE0 := by omega
      simp only [List.cons_append, List.nil_append, utf8Codes, e1, e2, if_true, if_false]
      rw [show 64 * (192 + n / 64 - 192) + (128 + n % 64 - 128) = n by omega]
    · split
      · have e1 : ¬ (0xE0 + n / 4096 < 0x80) := by omega
        have e2 : ¬ (0xE0 + n / 4096 < 0xE0) := by omega
        have e3 : 0xE0 + n / 4096 < 0xF0 := by omega
        simp only [List.cons_append, List.nil_append, utf8Codes, e1, e2, e3, if_true, if_false]
        rw [show 64 * (64 * (224 + n / 4096 - 224) + (128 + n / 64 % 64 - 128)) + (128 + n % 64 - 128) = n by omega]
      · have e1 : ¬ (0xF0 + n / 262144 < 0x80) := by omega
        have e2 : ¬ (0xF0 + n / 262144 < 0xE0) := by omega
        have e3 : ¬ (0xF0 + n / 262144 < 0xF0) := by omega
        simp only [List.cons_append, List.nil_append, utf8Codes, e1, e2, e3, if_false]
        rw [show 64 * (64 * (64 * (240 + n / 262144 - 240) + (128 + n / 4096 % 64 - 128)) + (128 + n / 64 % 64 - 128)) +
            (128 + n % 64 - 128) = n by omega]

theorem percentDecode_char (c : Char) (t : Text) :
    percentBytes (pctChar c ++ t) = utf8Bytes c ++ percentBytes t := by
  unfold pctChar
  simp only
  split
  · rename_i h
    have hc : c ≠ '%' := by rintro rfl; revert h; decide
    have hb : c.toNat < 0x80 := by
      simp only [Bool.or_eq_true, Bool.and_eq_true, decide_eq_true_eq] at h; omega
    simp only [utf8Bytes, hb, if_true, List.cons_append, List.nil_append]
    rw [percentBytes]
    rintro a b s h1 h2
    exact hc h1
  · exact percentBytes_triplets _ (utf8Bytes_lt c) t

/-- Percent-encoding loses nothing: decoding gives the code points of the text. -/
theorem percentDecode_pctEncode (s : Str) : percentDecode (pctEncode s) = s.map Char.toNat := by
  unfold percentDecode pctEncode
  induction s with
  | nil => rfl
  | cons c s ih =>
    rw [List.flatMap_cons, percentDecode_char, utf8Codes_char, ih]; rfl

theorem pctEncode_alphabet (s : Str) : ∀ c ∈ pctEncode s, Spec.isUrlSafe c = true := by
  intro c hc
  unfold pctEncode at hc
  obtain ⟨d, -, hd⟩ := List.mem_flatMap.1 hc
  unfold pctChar at hd
  simp only at hd
  split at hd
  · rename_i h
    simp only [List.mem_singleton] at hd
    subst hd
    simp only [Bool.or_eq_true, Bool.and_eq_true, decide_eq_true_eq] at h
    simp only [Spec.isUrlSafe, Bool.or_eq_true, Bool.and_eq_true, decide_eq_true_eq]
    omega
  · obtain ⟨b, hb, hx⟩ := List.mem_flatMap.1 hd
    have hb := utf8Bytes_lt d b hb
    have : ∀ n, n < 16 → Spec.isUrlSafe (hexDigit n) = true := by decide
    simp only [List.mem_cons, List.not_mem_nil, or_false] at hx
    rcases hx with rfl | rfl | rfl
    · decide
    · exact this _ (by omega)
    · exact this _ (by omega)

theorem splitOnce_none {d : Char} : ∀ {s : Str}, d ∉ s → splitOnce d s = none
  | [], _ => rfl
  | c :: s, h => by
    simp only [List.mem_cons, not_or] at h
    rw [splitOnce, splitOnce_none h.2]
    have : (c == d) = false := by simp; exact fun e => h.1 e.symm
    simp [this]

/-- **C44.** If the library does not even accept the URL as a relative one, it is written
percent-encoded: it consists of letters, digits and `%`, and stands for the same
characters. If that is not accepted either, nothing is written. -/
theorem C44_encoded (E : Env) (url : Str) (hp : E.urlParse url = none) (hj : E.urlJoin url = none) :
    ∃ safe, percentDecode safe = url.map Char.toNat ∧ (∀ c ∈ safe, Spec.isUrlSafe c = true) ∧
      (UrlBits.parse E url).toStr = (if E.urlJoin safe = none then [] else safe) := by
  have hs := pctEncode_alphabet url
  have hd := percentDecode_pctEncode url
  have hq : '?' ∉ pctEncode url := fun h => absurd (hs _ h) (by decide)
  have hf : '#' ∉ pctEncode url := fun h => absurd (hs _ h) (by decide)
  cases h : E.urlJoin (pctEncode url) with
  | none =>
    have e : (UrlBits.parse E url).toStr = [] := by
      simp only [UrlBits.parse, hp, hj, h]; decide
    exact ⟨_, hd, hs, by rw [e, if_pos h]⟩
  | some j =>
    have e : (UrlBits.parse E url).toStr = pctEncode url := by
      have h3 : rfindChar '#' (pctEncode url) = none := by
        unfold rfindChar; rw [splitOnce_none (by simpa using hf)]; rfl
      simp only [UrlBits.parse, hp, hj, h, UrlBits.toStr, splitOnce_none hq, h3]
      split
      · rename_i h1; simp at h1
      · rfl
    exact ⟨_, hd, hs, by rw [e, if_neg (by simp [h])]⟩

/-- A library that accepts no spaces. -/
def noSpaceEnv : Env :=
  { demoEnv with urlJoin := fun s => if ' ' ∈ s then none else some (t!"http://example.com/" ++ s) }

example : noSpaceEnv.urlParse t!"a é?x" = none ∧ noSpaceEnv.urlJoin t!"a é?x" = none ∧
    (UrlBits.parse noSpaceEnv t!"a é?x").toStr = t!"a%20%C3%A9%3Fx" := by decide

/-! ## C48 -/

/-- The counters of a link: four brackets. -/
def brackets : List Char := ['[', '(', '{', '<']

theorem counter_get_new (cs : List Char) (c : Char) (h : c ∈ cs) :
    CharCounter.get c (CharCounter.new cs) = .ok none := by
  unfold CharCounter.new
  induction cs with
  | nil => simp at h
  | cons x cs ih =>
    simp only [List.map_cons, CharCounter.get]
    split
    · rfl
    · rename_i hx
      simp at hx h
      exact ih (by rcases h with rfl | h; exact absurd rfl hx; exact h)

theorem counter_set {c : Char} {v : Option Nat} : ∀ {m : CharCounter}, (∃ d, CharCounter.get c m = .ok d) →
    ∃ m', CharCounter.set c v m = .ok m' ∧ m'.map (·.1) = m.map (·.1) ∧
      ∀ c', CharCounter.get c' m' = if c' = c then .ok v else CharCounter.get c' m
  | [], h => by simp [CharCounter.get] at h
  | (a, d) :: m, h => by
    by_cases ha : a = c
    · subst ha
      refine ⟨(a, v) :: m, by simp [CharCounter.set], by simp, ?_⟩
      intro c'
      simp only [CharCounter.get]
      by_cases hc : c' = a
      · subst hc; simp
      · simp [hc, Ne.symm hc]
    · have : ∃ d, CharCounter.get c m = .ok d := by
        obtain ⟨d', h⟩ := h
        simp [CharCounter.get, ha] at h; exact ⟨d', h⟩
      obtain ⟨m', h1, h2, h3⟩ := counter_set (v := v) this
      refine ⟨(a, d) :: m', by simp [CharCounter.set, ha, h1], by simp [h2], ?_⟩
      intro c'
      simp only [CharCounter.get, h3 c']
      by_cases hc : c' = c
      · subst hc; simp [ha]
      · simp [hc]

/-- A step of a sequence of operations on counters. -/
inductive CounterOp where
  | set (c : Char) (v : Option Nat)
  | dec (c : Char)

/-- The specification: counters are a function; decrementing stops at zero. -/
def CounterOp.spec : CounterOp → (Char → Option Nat) → Char → Option Nat
  | .set c v, f => fun x => if x = c then v else f x
  | .dec c, f => fun x => if x = c then (f c).map (· - 1) else f x

def CounterOp.run : CounterOp → CharCounter → Except Err CharCounter
  | .set c v, m => CharCounter.set c v m
  | .dec c, m => CharCounter.dec c m

/-- Operations on known characters, decrementing only counters that are set. -/
def CounterOp.Ok (cs : List Char) (f : Char → Option Nat) : CounterOp → Prop
  | .set c _ => c ∈ cs
  | .dec c => c ∈ cs ∧ f c ≠ none

def opsOk (cs : List Char) : (Char → Option Nat) → List CounterOp → Prop
  | _, [] => True
  | f, o :: os => o.Ok cs f ∧ opsOk cs (o.spec f) os

/-- **C48.** Counters behave like a map: any sequence of assignments and decrements of
known characters succeeds, and reading any counter gives what the specification gives. -/
theorem C48_counters (cs : List Char) : ∀ (ops : List CounterOp) (m : CharCounter) (f : Char → Option Nat),
    (∀ c ∈ cs, CharCounter.get c m = .ok (f c)) → opsOk cs f ops →
    ∃ m', ops.foldlM (fun m o => o.run m) m = .ok m' ∧
      ∀ c ∈ cs, CharCounter.get c m' = .ok (ops.foldl (fun f o => o.spec f) f c)
  | [], m, f, h, _ => ⟨m, rfl, h⟩
  | o :: ops, m, f, h, ho => by
    obtain ⟨h1, h2⟩ := ho
    have step : ∃ m', o.run m = .ok m' ∧ ∀ c ∈ cs, CharCounter.get c m' = .ok (o.spec f c) := by
      cases o with
      | set c v =>
        obtain ⟨m', e, _, hg⟩ := counter_set (v := v) ⟨_, h c h1⟩
        refine ⟨m', e, ?_⟩
        intro x hx
        rw [hg x]
        simp only [CounterOp.spec]
        split
        · rfl
        · exact h x hx
      | dec c =>
        obtain ⟨hc, hn⟩ := h1
        obtain ⟨v, hv⟩ := Option.ne_none_iff_exists'.1 hn
        obtain ⟨m', e, _, hg⟩ := counter_set (v := some (if v > 0 then v - 1 else 0)) ⟨_, h c hc⟩
        refine ⟨m', by simp [CounterOp.run, CharCounter.dec, h c hc, hv, e], ?_⟩
        intro x hx
        rw [hg x]
        simp only [CounterOp.spec]
        split
        · rw [hv]; simp; omega
        · exact h x hx
    obtain ⟨m1, e1, g1⟩ := step
    obtain ⟨m2, e2, g2⟩ := C48_counters cs ops m1 (o.spec f) g1 h2
    exact ⟨m2, by rw [List.foldlM_cons, e1]; exact e2, g2⟩

/-- The initial counters are unset. -/
theorem C48_initial (cs : List Char) : ∀ c ∈ cs, CharCounter.get c (CharCounter.new cs) = .ok none :=
  fun c h => counter_get_new cs c h

example : opsOk brackets (fun _ => none) [.set '(' (some 1), .dec '(', .dec '('] := by
  simp [opsOk, CounterOp.Ok, CounterOp.spec, brackets]

end Rustextile
