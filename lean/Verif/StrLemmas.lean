import Verif.Base

/-!
# Facts about the string functions
-/

namespace Rustextile

/-! ## Trimming -/

theorem trimEndP_spec (p : Char → Bool) (s : Str) :
    ∃ w, s = trimEndP p s ++ w ∧ (∀ c ∈ w, p c = true) := by
  refine ⟨(s.reverse.takeWhile p).reverse, ?_, ?_⟩
  · rw [trimEndP, ← List.reverse_append, List.takeWhile_append_dropWhile, List.reverse_reverse]
  · intro c hc
    rw [List.mem_reverse] at hc
    have : ∀ l : Str, c ∈ l.takeWhile p → p c = true := by
      intro l
      induction l with
      | nil => simp
      | cons x xs ih =>
        intro h
        simp only [List.takeWhile_cons] at h
        split at h
        · rcases List.mem_cons.1 h with rfl | h
          · assumption
          · exact ih h
        · simp at h
    exact this _ hc

theorem dropWhile_head (p : Char → Bool) : ∀ (s : Str) (c : Char), (s.dropWhile p).head? = some c → p c = false
  | [], c, h => by simp at h
  | x :: xs, c, h => by
    rw [List.dropWhile_cons] at h
    split at h
    · exact dropWhile_head p xs c h
    · rename_i hx; simp at h; subst h; exact eq_false_of_ne_true hx

theorem trimEndP_last (p : Char → Bool) (s : Str) (c : Char) (h : (trimEndP p s).getLast? = some c) :
    p c = false := by
  rw [trimEndP, List.getLast?_reverse] at h
  exact dropWhile_head p _ c h

theorem dropWhile_of_head {p : Char → Bool} : ∀ {s : Str}, (∀ c, s.head? = some c → p c = false) → s.dropWhile p = s
  | [], _ => rfl
  | x :: xs, h => by
    have := h x rfl
    simp [this]

theorem trimEndP_of_last {p : Char → Bool} {s : Str} (h : ∀ c, s.getLast? = some c → p c = false) :
    trimEndP p s = s := by
  rw [trimEndP, dropWhile_of_head, List.reverse_reverse]
  intro c hc
  rw [List.head?_reverse] at hc
  exact h c hc

theorem dropWhile_append_of_all {p : Char → Bool} : ∀ {w s : Str}, (∀ c ∈ w, p c = true) →
    (w ++ s).dropWhile p = s.dropWhile p
  | [], _, _ => rfl
  | x :: w, s, h => by
    simp only [List.cons_append, List.dropWhile_cons, h x (by simp), if_true]
    exact dropWhile_append_of_all (fun c hc => h c (by simp [hc]))

theorem trimEndP_append_of_all {p : Char → Bool} {s w : Str} (h : ∀ c ∈ w, p c = true) :
    trimEndP p (s ++ w) = trimEndP p s := by
  rw [trimEndP, trimEndP, List.reverse_append, dropWhile_append_of_all]
  intro c hc; exact h c (by simpa using hc)

theorem dropWhile_eq_nil {p : Char → Bool} : ∀ {s : Str}, s.dropWhile p = [] ↔ ∀ c ∈ s, p c = true
  | [] => by simp
  | x :: xs => by
    rw [List.dropWhile_cons]
    by_cases hx : p x = true
    · simp only [hx, if_true, List.mem_cons, forall_eq_or_imp, true_and]
      exact dropWhile_eq_nil
    · simp [hx]

theorem trimEndP_eq_nil {p : Char → Bool} {s : Str} : trimEndP p s = [] ↔ ∀ c ∈ s, p c = true := by
  rw [trimEndP, List.reverse_eq_nil_iff, dropWhile_eq_nil]
  simp

theorem mem_dropWhile {p : Char → Bool} {s : Str} {c : Char} (h : c ∈ s.dropWhile p) : c ∈ s :=
  (List.dropWhile_suffix p).subset h

theorem mem_trimEndP {p : Char → Bool} {s : Str} {c : Char} (h : c ∈ trimEndP p s) : c ∈ s := by
  rw [trimEndP, List.mem_reverse] at h
  simpa using mem_dropWhile h

/-- `trim(s)` is empty exactly when `s` is blank. -/
theorem trim_isEmpty {s : Str} : (trim s).isEmpty = true ↔ ∀ c ∈ s, isWs c = true := by
  rw [List.isEmpty_iff, trim, trimP, trimEndP_eq_nil, trimStartP]
  constructor
  · intro h c hc
    have h1 : s.takeWhile isWs ++ s.dropWhile isWs = s := List.takeWhile_append_dropWhile
    by_cases he : s.dropWhile isWs = []
    · exact dropWhile_eq_nil.1 he c hc
    · obtain ⟨x, xs, hx⟩ := List.exists_cons_of_ne_nil he
      have h2 := dropWhile_head isWs s x (by rw [hx]; rfl)
      rw [h x (by rw [hx]; simp)] at h2
      simp at h2
  · intro h c hc; exact h c (mem_dropWhile hc)

/-! ## Substrings -/

theorem isPrefixOf_iff {w s : Str} : w.isPrefixOf s = true ↔ ∃ t, s = w ++ t := by
  rw [List.isPrefixOf_iff_prefix]
  constructor
  · rintro ⟨t, h⟩; exact ⟨t, h.symm⟩
  · rintro ⟨t, h⟩; exact ⟨t, h.symm⟩

theorem containsStr_iff {n : Str} : ∀ {s : Str}, containsStr n s = true ↔ ∃ a b, s = a ++ (n ++ b)
  | [] => by
    simp only [containsStr, List.isEmpty_iff]
    constructor
    · rintro rfl; exact ⟨[], [], rfl⟩
    · rintro ⟨a, b, h⟩
      have := (List.append_eq_nil_iff.1 h.symm).2
      exact (List.append_eq_nil_iff.1 this).1
  | c :: t => by
    simp only [containsStr, Bool.or_eq_true, isPrefixOf_iff, containsStr_iff (s := t)]
    constructor
    · rintro (⟨u, h⟩ | ⟨a, b, h⟩)
      · exact ⟨[], u, h⟩
      · exact ⟨c :: a, b, by simp [h]⟩
    · rintro ⟨a, b, h⟩
      cases a with
      | nil => exact .inl ⟨b, h⟩
      | cons x a => simp at h; exact .inr ⟨a, b, h.2⟩

theorem containsStr_false_cons {n : Str} {c : Char} {t : Str} (h : containsStr n (c :: t) = false) :
    containsStr n t = false := by
  simp only [containsStr, Bool.or_eq_false_iff] at h; exact h.2

/-- Nothing to replace. -/
theorem replaceStr_none {n rep : Str} : ∀ {s : Str}, containsStr n s = false → replaceStr n rep s = s
  | [], _ => rfl
  | c :: t, h => by
    simp only [containsStr, Bool.or_eq_false_iff] at h
    have ih := replaceStr_none (rep := rep) h.2
    unfold replaceStr at ih ⊢
    rw [replaceAux]
    simp [h.1, ih]

theorem replaceAux_skip (n rep : Str) : ∀ (k : Nat) (s : Str), k ≤ s.length →
    replaceAux n rep k s = replaceAux n rep 0 (s.drop k)
  | 0, s, _ => rfl
  | k + 1, [], h => by simp at h
  | k + 1, x :: s, h => by
    rw [replaceAux, replaceAux_skip n rep k s (by simpa using h)]
    rfl

/-- Replacing at an occurrence. -/
theorem replaceStr_hit {n rep t : Str} (hn : n ≠ []) : replaceStr n rep (n ++ t) = rep ++ replaceStr n rep t := by
  cases n with
  | nil => exact absurd rfl hn
  | cons x n =>
    have hp : List.isPrefixOf (x :: n) (x :: (n ++ t)) = true := isPrefixOf_iff.2 ⟨t, rfl⟩
    change replaceAux _ _ 0 (x :: (n ++ t)) = _
    rw [replaceAux, if_pos hp]
    simp only [List.length_cons, Nat.add_sub_cancel]
    rw [replaceAux_skip _ _ _ _ (by simp)]
    simp [replaceStr]

theorem replaceStr_miss {n rep t : Str} {x : Char} (h : n.isPrefixOf (x :: t) = false) :
    replaceStr n rep (x :: t) = x :: replaceStr n rep t := by
  unfold replaceStr
  rw [replaceAux]
  simp [h]

/-- A text in which a needle does not occur, followed by one: the occurrence is
the first one if the needle overlaps with nothing before it. -/
theorem containsStr_append_right {n a b : Str} (h : containsStr n (a ++ b) = false) :
    containsStr n b = false := by
  induction a with
  | nil => exact h
  | cons x a ih => exact ih (containsStr_false_cons h)

theorem containsStr_false_of_mem {n s : Str} {c : Char} (hc : c ∈ n) (hs : c ∉ s) : containsStr n s = false := by
  cases h : containsStr n s with
  | false => rfl
  | true =>
    obtain ⟨a, b, e⟩ := containsStr_iff.1 h
    exact absurd (by rw [e]; simp [hc]) hs

/-! ## Numbers -/

/-- Value of a digit string, continuing from `a`. -/
def digitsVal (a : Nat) (s : Str) : Option Nat :=
  s.foldl (fun acc c =>
    match acc with
    | none => none
    | some a => if 48 ≤ c.toNat && c.toNat ≤ 57 then some (a * 10 + (c.toNat - 48)) else none) (some a)

theorem digit_toNat {k : Nat} (h : k < 10) : (Char.ofNat (48 + k)).toNat = 48 + k := by
  have : k = 0 ∨ k = 1 ∨ k = 2 ∨ k = 3 ∨ k = 4 ∨ k = 5 ∨ k = 6 ∨ k = 7 ∨ k = 8 ∨ k = 9 := by omega
  rcases this with rfl | rfl | rfl | rfl | rfl | rfl | rfl | rfl | rfl | rfl <;> rfl

theorem digitsVal_cons {a k : Nat} (h : k < 10) (s : Str) :
    digitsVal a (Char.ofNat (48 + k) :: s) = digitsVal (a * 10 + k) s := by
  simp only [digitsVal, List.foldl_cons, digit_toNat h]
  rw [if_pos (by simp; omega)]
  congr 2; omega

theorem natDigitsAux_val : ∀ (f n : Nat) (acc : Str), n < f →
    digitsVal 0 (natDigitsAux f n acc) = digitsVal n acc
  | 0, n, acc, h => by omega
  | f + 1, n, acc, h => by
    rw [natDigitsAux]
    have hm : n % 10 < 10 := Nat.mod_lt _ (by omega)
    split
    · rename_i h0
      rw [digitsVal_cons hm]
      congr 1; omega
    · rename_i h0
      rw [natDigitsAux_val f (n / 10) _ (by omega), digitsVal_cons hm]
      congr 1; omega

theorem natDigitsAux_ne_nil : ∀ (f n : Nat) (acc : Str), 0 < f → natDigitsAux f n acc ≠ []
  | f + 1, n, acc, _ => by
    rw [natDigitsAux]
    split
    · simp
    · cases f with
      | zero => simp [natDigitsAux]
      | succ f => exact natDigitsAux_ne_nil (f + 1) _ _ (by omega)

theorem natStr_ne_nil (n : Nat) : natStr n ≠ [] := natDigitsAux_ne_nil _ _ _ (by omega)

/-- Printing and parsing a number. -/
theorem parseDigits_natStr (n : Nat) : parseDigits (natStr n) = some n := by
  have h := natDigitsAux_val (n + 1) n [] (by omega)
  unfold parseDigits
  rw [if_neg (by simp [natStr_ne_nil])]
  exact h

theorem parseU32_natStr {n : Nat} (h : n < 2 ^ 32) : parseU32 (natStr n) = some n := by
  simp [parseU32, parseDigits_natStr, h]

theorem natStr_inj {m n : Nat} (h : natStr m = natStr n) : m = n := by
  have := congrArg parseDigits h
  simpa [parseDigits_natStr] using this

/-- An ASCII digit. -/
def isDigitC (c : Char) : Bool := 48 ≤ c.toNat && c.toNat ≤ 57

theorem natDigitsAux_digits : ∀ (f n : Nat) (acc : Str), (∀ c ∈ acc, isDigitC c = true) →
    ∀ c ∈ natDigitsAux f n acc, isDigitC c = true
  | 0, _, _, h => h
  | f + 1, n, acc, h => by
    have hm : n % 10 < 10 := Nat.mod_lt _ (by omega)
    have h' : ∀ c ∈ Char.ofNat (48 + n % 10) :: acc, isDigitC c = true := by
      intro c hc
      rcases List.mem_cons.1 hc with rfl | hc
      · simp only [isDigitC, digit_toNat hm, Bool.and_eq_true, decide_eq_true_eq]; omega
      · exact h c hc
    rw [natDigitsAux]
    split
    · exact h'
    · exact natDigitsAux_digits f _ _ h'

theorem natStr_digits (n : Nat) : ∀ c ∈ natStr n, isDigitC c = true :=
  natDigitsAux_digits _ _ _ (by simp)

/-! ## Association lists -/

theorem alLookup_imInsert {α β} [DecidableEq α] (k k' : α) (v : β) : ∀ (l : List (α × β)),
    alLookup k' (imInsert k v l) = if k' = k then some v else alLookup k' l
  | [] => by
    simp only [imInsert, alLookup]
    by_cases h : k = k'
    · simp [h]
    · simp [h, Ne.symm h]
  | (a, b) :: t => by
    simp only [imInsert]
    split
    · rename_i h; subst h
      simp only [alLookup]
      by_cases h : a = k'
      · simp [h]
      · simp [h, Ne.symm h]
    · rename_i h
      simp only [alLookup, alLookup_imInsert k k' v t]
      by_cases h' : a = k'
      · subst h'; simp [h]
      · simp [h']

theorem imInsert_fresh {α β} [DecidableEq α] {k : α} {v : β} : ∀ {l : List (α × β)},
    (∀ p ∈ l, p.1 ≠ k) → imInsert k v l = l ++ [(k, v)]
  | [], _ => rfl
  | (a, b) :: t, h => by
    have h1 : a ≠ k := h (a, b) (by simp)
    simp only [imInsert, h1, if_false, List.cons_append]
    rw [imInsert_fresh (fun p hp => h p (by simp [hp]))]

end Rustextile
