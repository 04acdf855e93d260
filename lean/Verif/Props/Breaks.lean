import Verif.Props.Failures

/-!
# Breaks in list items and table cells: C45
-/

namespace Rustextile

/-! ## Bytes -/

theorem byteLen_nil : byteLen [] = 0 := rfl
theorem byteLen_cons (c : Char) (s : Str) : byteLen (c :: s) = c.utf8Size + byteLen s := rfl

theorem byteLen_append (a b : Str) : byteLen (a ++ b) = byteLen a + byteLen b := by
  induction a with
  | nil => simp [byteLen_nil]
  | cons c a ih => rw [List.cons_append, byteLen_cons, byteLen_cons, ih]; omega

theorem dropBytes_pos {n : Nat} {c : Char} {t : Str} (h : 0 < n) :
    dropBytes n (c :: t) = if c.utf8Size ≤ n then dropBytes (n - c.utf8Size) t else none := by
  cases n with
  | zero => omega
  | succ n => rfl

theorem takeBytes_pos {n : Nat} {c : Char} {t : Str} (h : 0 < n) :
    takeBytes n (c :: t) = if c.utf8Size ≤ n then (takeBytes (n - c.utf8Size) t).map (c :: ·) else none := by
  cases n with
  | zero => omega
  | succ n => rfl

theorem dropBytes_append (a b : Str) : dropBytes (byteLen a) (a ++ b) = some b := by
  induction a with
  | nil => cases b <;> rfl
  | cons c a ih =>
    have := c.utf8Size_pos
    rw [List.cons_append, byteLen_cons, dropBytes_pos (by omega), if_pos (by omega), Nat.add_sub_cancel_left, ih]

theorem takeBytes_append (a b : Str) : takeBytes (byteLen a) (a ++ b) = some a := by
  induction a with
  | nil => cases b <;> rfl
  | cons c a ih =>
    have := c.utf8Size_pos
    rw [List.cons_append, byteLen_cons, takeBytes_pos (by omega), if_pos (by omega), Nat.add_sub_cancel_left, ih]; rfl

theorem sliceBytes_append (a m b : Str) : sliceBytes (a ++ (m ++ b)) (byteLen a) (byteLen a + byteLen m) = some m := by
  unfold sliceBytes
  rw [if_pos (by omega), dropBytes_append]
  simp only
  rw [Nat.add_sub_cancel_left, takeBytes_append]

theorem dropBytes_some : ∀ {s t : Str} {n : Nat}, dropBytes n s = some t → ∃ u, s = u ++ t ∧ byteLen u = n
  | s, t, 0, h => by
    refine ⟨[], ?_, rfl⟩
    cases s <;> · simp only [dropBytes, Option.some.injEq] at h; simp [h]
  | [], t, n + 1, h => by simp [dropBytes] at h
  | c :: s, t, n + 1, h => by
    rw [dropBytes] at h
    split at h
    · obtain ⟨u, rfl, hu⟩ := dropBytes_some h
      exact ⟨c :: u, rfl, by rw [byteLen_cons]; omega⟩
    · cases h

theorem takeBytes_some : ∀ {s t : Str} {n : Nat}, takeBytes n s = some t → ∃ u, s = t ++ u ∧ byteLen t = n
  | s, t, 0, h => by
    refine ⟨s, ?_, ?_⟩ <;> cases s <;> · simp only [takeBytes, Option.some.injEq] at h; subst h; rfl
  | [], t, n + 1, h => by simp [takeBytes] at h
  | c :: s, t, n + 1, h => by
    rw [takeBytes] at h
    split at h
    · rw [Option.map_eq_some_iff] at h
      obtain ⟨v, hv, rfl⟩ := h
      obtain ⟨u, rfl, hu⟩ := takeBytes_some hv
      exact ⟨u, rfl, by rw [byteLen_cons]; omega⟩
    · cases h

theorem byteLen_eq_zero {s : Str} (h : byteLen s = 0) : s = [] := by
  cases s with
  | nil => rfl
  | cons c s => have := c.utf8Size_pos; rw [byteLen_cons] at h; omega

/-- Two ways to cut a text at the same number of bytes are the same. -/
theorem cut_bytes {a b c d : Str} (e : a ++ b = c ++ d) (h : byteLen a = byteLen c) : a = c ∧ b = d := by
  rcases List.append_eq_append_iff.1 e with ⟨u, rfl, rfl⟩ | ⟨u, rfl, rfl⟩
  · rw [byteLen_append] at h
    have := byteLen_eq_zero (s := u) (by omega); subst this; simp
  · rw [byteLen_append] at h
    have := byteLen_eq_zero (s := u) (by omega); subst this; simp

theorem ascii_size {c : Char} (h : c.toNat < 128) : c.utf8Size = 1 := by
  rw [Char.utf8Size_eq_one_iff]
  have : c.val.toNat < 128 := h
  exact UInt32.le_iff_toNat_le.2 (by simp; omega)

theorem size_ascii {c : Char} (h : c.utf8Size = 1) : c.toNat < 128 := by
  rw [Char.utf8Size_eq_one_iff] at h
  have := UInt32.le_iff_toNat_le.1 h
  have e : c.toNat = c.val.toNat := rfl
  simp at this; omega

theorem byteLen_ascii {s : Str} (h : ∀ c ∈ s, c.toNat < 128) : byteLen s = s.length := by
  induction s with
  | nil => rfl
  | cons c s ih =>
    rw [byteLen_cons, ascii_size (h c (by simp)), ih (fun x hx => h x (List.mem_cons_of_mem _ hx))]
    simp; omega

/-! ## Case -/

theorem asciiLower_eq (c : Char) : asciiLower c = Spec.lower c := rfl

theorem lower_range {c : Char} (h : 65 ≤ c.toNat ∧ c.toNat ≤ 90) : (Char.ofNat (c.toNat + 32)).toNat = c.toNat + 32 := by
  have hv : (c.toNat + 32).isValidChar := Or.inl (by omega)
  unfold Char.ofNat
  rw [dif_pos hv]
  rfl

theorem lower_size (c : Char) : (asciiLower c).utf8Size = c.utf8Size := by
  unfold asciiLower
  split
  · next h =>
    simp only [Bool.and_eq_true, decide_eq_true_eq] at h
    rw [ascii_size (c := c) (by omega), ascii_size (by rw [lower_range h]; omega)]
  · rfl

theorem lower_ascii {c : Char} : (asciiLower c).toNat < 128 ↔ c.toNat < 128 := by
  unfold asciiLower
  split
  · next h =>
    simp only [Bool.and_eq_true, decide_eq_true_eq] at h
    rw [lower_range h]; omega
  · rfl

theorem byteLen_map {f : Char → Char} {s : Str} (h : ∀ c ∈ s, (f c).utf8Size = c.utf8Size) :
    byteLen (s.map f) = byteLen s := by
  induction s with
  | nil => rfl
  | cons c s ih =>
    rw [List.map_cons, byteLen_cons, byteLen_cons, h c (by simp), ih (fun x hx => h x (List.mem_cons_of_mem _ hx))]

/-- Comparison with an ASCII text. -/
theorem eqIgnore_iff {p : Str} (hp : ∀ c ∈ p, c.toNat < 128) : ∀ {v : Str},
    eqIgnoreAsciiCase v p = true ↔ v.map asciiLower = p.map asciiLower := by
  induction p with
  | nil =>
    intro v
    unfold eqIgnoreAsciiCase
    constructor
    · intro h
      simp only [Bool.and_eq_true, beq_iff_eq] at h
      rw [byteLen_eq_zero h.1]
    · intro h
      simp at h; subst h; rfl
  | cons d p ih =>
    intro v
    have hd := hp d (by simp)
    have ih := @ih (fun x hx => hp x (List.mem_cons_of_mem _ hx))
    cases v with
    | nil =>
      have := d.utf8Size_pos
      constructor
      · intro h
        simp only [eqIgnoreAsciiCase, Bool.and_eq_true, beq_iff_eq, byteLen_cons, byteLen_nil] at h; omega
      · intro h; simp at h
    | cons c v =>
      have key : eqIgnoreAsciiCase (c :: v) (d :: p) = true ↔ asciiLower c = asciiLower d ∧ eqIgnoreAsciiCase v p = true := by
        simp only [eqIgnoreAsciiCase, Bool.and_eq_true, beq_iff_eq, byteLen_cons, List.zip_cons_cons, List.all_cons]
        constructor
        · rintro ⟨h1, h2, h3⟩
          refine ⟨h2, ?_, h3⟩
          have : c.utf8Size = d.utf8Size := by rw [← lower_size c, h2, lower_size]
          omega
        · rintro ⟨h2, h1, h3⟩
          have : c.utf8Size = d.utf8Size := by rw [← lower_size c, h2, lower_size]
          exact ⟨by omega, h2, h3⟩
      rw [key, ih]
      simp

/-! ## The words after which there is no break -/

theorem drop_ascii : ∀ {s : Str} {n : Nat}, (∀ c ∈ s, c.toNat < 128) → n ≤ s.length → dropBytes n s = some (s.drop n)
  | s, 0, _, _ => by cases s <;> rfl
  | [], n + 1, _, h => by simp at h
  | c :: s, n + 1, hs, h => by
    rw [dropBytes, ascii_size (hs c (by simp)), if_pos (by omega)]
    exact drop_ascii (fun x hx => hs x (List.mem_cons_of_mem _ hx)) (by simpa using h)

theorem take_ascii : ∀ {s : Str} {n : Nat}, (∀ c ∈ s, c.toNat < 128) → n ≤ s.length → takeBytes n s = some (s.take n)
  | s, 0, _, _ => by cases s <;> rfl
  | [], n + 1, _, h => by simp at h
  | c :: s, n + 1, hs, h => by
    rw [takeBytes, ascii_size (hs c (by simp)), if_pos (by omega)]
    simp only [Nat.add_sub_cancel]
    rw [take_ascii (fun x hx => hs x (List.mem_cons_of_mem _ hx)) (by simpa using h)]; rfl

theorem takeBytes_prefix : ∀ {x y : Str} {n : Nat}, (∀ c ∈ x, c.toNat < 128) → n ≤ x.length →
    takeBytes n (x ++ y) = takeBytes n x
  | x, y, 0, _, _ => by cases x <;> cases y <;> rfl
  | [], y, n + 1, _, h => by simp at h
  | c :: x, y, n + 1, hs, h => by
    rw [List.cons_append, takeBytes, takeBytes, ascii_size (hs c (by simp)), if_pos (by omega), if_pos (by omega)]
    rw [takeBytes_prefix (fun z hz => hs z (List.mem_cons_of_mem _ hz)) (by simpa using h)]

theorem dropBytes_prefix : ∀ {x y : Str} {n : Nat}, (∀ c ∈ x, c.toNat < 128) → n ≤ x.length →
    dropBytes n (x ++ y) = (dropBytes n x).map (· ++ y)
  | x, y, 0, _, _ => by cases x <;> cases y <;> simp [dropBytes]
  | [], y, n + 1, _, h => by simp at h
  | c :: x, y, n + 1, hs, h => by
    rw [List.cons_append, dropBytes, dropBytes, ascii_size (hs c (by simp)), if_pos (by omega), if_pos (by omega)]
    rw [dropBytes_prefix (fun z hz => hs z (List.mem_cons_of_mem _ hz)) (by simpa using h)]

theorem sliceBytes_some {x y v : Str} {a : Nat} (h : sliceBytes (x ++ y) a (byteLen x) = some v) (ha : a ≤ byteLen x) :
    ∃ u, x = u ++ v ∧ byteLen u = a := by
  unfold sliceBytes at h
  rw [if_pos ha] at h
  split at h
  · next t ht =>
    obtain ⟨u, e, hu⟩ := dropBytes_some ht
    obtain ⟨z, rfl, hz⟩ := takeBytes_some h
    have := cut_bytes (a := x) (b := y) (c := u ++ v) (d := z) (by rw [e]; simp) (by rw [byteLen_append]; omega)
    exact ⟨u, this.1, hu⟩
  · cases h

theorem sliceBytes_ascii {x y : Str} {a : Nat} (hx : ∀ c ∈ x, c.toNat < 128) (ha : a ≤ byteLen x) :
    sliceBytes (x ++ y) a (byteLen x) ≠ none := by
  have hl := byteLen_ascii hx
  unfold sliceBytes
  rw [if_pos ha, dropBytes_prefix hx (by omega), drop_ascii hx (by omega)]
  simp only [Option.map_some]
  have hd : ∀ c ∈ x.drop a, c.toNat < 128 := fun c hc => hx c (List.mem_of_mem_drop hc)
  rw [takeBytes_prefix hd (by simp; omega), take_ascii hd (by simp; omega)]
  simp

theorem stop_iff {x v u p : Str} (hp : ∀ c ∈ p, c.toNat < 128) (hl : p.map asciiLower = p) (e : x = u ++ v)
    (hu : byteLen u = byteLen x - min (byteLen p) (byteLen x)) :
    eqIgnoreAsciiCase v p = true ↔ p <:+ x.map asciiLower := by
  rw [eqIgnore_iff hp, hl]
  constructor
  · intro h; exact ⟨u.map asciiLower, by rw [e, List.map_append, h]⟩
  · rintro ⟨w, hw⟩
    obtain ⟨u2, v2, e2, h1, h2⟩ := List.map_eq_append_iff.1 hw.symm
    have h3 : byteLen v2 = byteLen p := by rw [← h2, byteLen_map (fun c _ => lower_size c)]
    have h4 : byteLen x = byteLen u2 + byteLen v2 := by rw [e2, byteLen_append]
    have := cut_bytes (a := u) (b := v) (c := u2) (d := v2) (by rw [← e, e2]) (by omega)
    rw [this.2, h2]

theorem anyStop_spec {x y : Str} : ∀ {ps : List Str}, (∀ p ∈ ps, (∀ c ∈ p, c.toNat < 128) ∧ p.map asciiLower = p) →
    anyStop (x ++ y) (byteLen x) ps = .ok (decide (∃ p ∈ ps, p <:+ x.map asciiLower)) ∨
      (anyStop (x ++ y) (byteLen x) ps = .error sliceErr ∧ ∃ c ∈ x, 128 ≤ c.toNat)
  | [], _ => by left; simp [anyStop]
  | p :: ps, h => by
    have hp := h p (by simp)
    have ih := anyStop_spec (x := x) (y := y) (fun q hq => h q (List.mem_cons_of_mem _ hq))
    rw [anyStop]
    cases hs : sliceBytes (x ++ y) (byteLen x - min (byteLen p) (byteLen x)) (byteLen x) with
    | none =>
      right
      refine ⟨rfl, ?_⟩
      refine Decidable.byContradiction fun hn => sliceBytes_ascii (x := x) (y := y) ?_ (Nat.sub_le _ _) hs
      intro c hc
      refine Decidable.byContradiction fun h => hn ⟨c, hc, by omega⟩
    | some v =>
      obtain ⟨u, e, hu⟩ := sliceBytes_some hs (Nat.sub_le _ _)
      have hst := stop_iff hp.1 hp.2 e hu
      simp only
      by_cases hq : eqIgnoreAsciiCase v p = true
      · left
        rw [if_pos hq]
        congr 1
        simp [hst.1 hq]
      · rw [if_neg hq]
        have : ¬ p <:+ x.map asciiLower := fun h => hq (hst.2 h)
        simpa [this] using ih

/-! ## The loop -/

theorem findNl_none : ∀ {s : Str}, findNlBytes s = none → '\n' ∉ s
  | [], _ => by simp
  | c :: s, h => by
    rw [findNlBytes] at h
    split at h
    · cases h
    · next hc =>
      simp only [List.mem_cons, not_or]
      exact ⟨fun e => hc (by simp [← e]), findNl_none (by simpa using h)⟩

theorem findNl_some : ∀ {s : Str} {n : Nat}, findNlBytes s = some n →
    ∃ a b, s = a ++ '\n' :: b ∧ '\n' ∉ a ∧ byteLen a = n
  | [], n, h => by simp [findNlBytes] at h
  | c :: s, n, h => by
    rw [findNlBytes] at h
    split at h
    · next hc =>
      simp only [Option.some.injEq] at h
      exact ⟨[], s, by simpa using hc, by simp, by rw [byteLen_nil]; exact h⟩
    · next hc =>
      rw [Option.map_eq_some_iff] at h
      obtain ⟨k, hk, rfl⟩ := h
      obtain ⟨a, b, rfl, h1, h2⟩ := findNl_some hk
      refine ⟨c :: a, b, rfl, ?_, by rw [byteLen_cons, h2]⟩
      simp only [List.mem_cons, not_or]
      exact ⟨fun e => hc (by simp [← e]), h1⟩

theorem withBreaks_skip (br : Str) : ∀ (a before t : Str), '\n' ∉ a →
    Spec.withBreaks br before (a ++ t) = a ++ Spec.withBreaks br (before ++ a) t
  | [], before, t, _ => by simp
  | c :: a, before, t, h => by
    simp only [List.mem_cons, not_or] at h
    rw [List.cons_append, Spec.withBreaks, if_neg (fun e => h.1 e.1.symm), withBreaks_skip br a (before ++ [c]) t h.2]
    simp

theorem withBreaks_none (br before t : Str) (h : '\n' ∉ t) : Spec.withBreaks br before t = t := by
  have := withBreaks_skip br t before [] h
  simpa [Spec.withBreaks] using this

/-- What is assumed of the conversion to lower case: each character is converted on its
own, to one of the same length. -/
structure LowerOk (low : Char → Char) (c : Char) : Prop where
  size : (low c).utf8Size = c.utf8Size
  ascii : asciiLower (low c) = asciiLower c
  newline : low c = '\n' ↔ c = '\n'
  bar : low c = '|' ↔ c = '|'
  space : isWs (low c) = isWs c

/-- Somewhere in the text a newline where a break could be needed comes after a character
outside ASCII. -/
def Risky (text : Str) : Prop := ∃ u v, text = u ++ '\n' :: v ∧ (∃ c ∈ u, 128 ≤ c.toNat) ∧
  ∀ c, v.head? = some c → Spec.isSpace c = false ∧ c ≠ '|'

theorem stopPrefixes_ok : ∀ p ∈ stopPrefixes, (∀ c ∈ p, c.toNat < 128) ∧ p.map asciiLower = p := by decide

theorem brLoop_spec {low : Char → Char} {br : Str} : ∀ (f : Str) (a b out : Str),
    (∀ c ∈ a ++ b, LowerOk low c) → b.length < f.length →
    (∃ x y, brLoop (a ++ b) ((a ++ b).map low) br f (byteLen a) out = .ok (byteLen x, y) ∧
      ∃ r, a ++ b = x ++ r ∧ y ++ r = out ++ Spec.withBreaks br a b ∧ ('\n' ∈ b ∨ out ≠ [] → y ≠ [])) ∨
    (brLoop (a ++ b) ((a ++ b).map low) br f (byteLen a) out = .error sliceErr ∧ Risky (a ++ b))
  | [], a, b, out, _, hl => by simp at hl
  | _ :: f, a, b, out, hok, hl => by
    have ha : byteLen (a.map low) = byteLen a := byteLen_map (fun c hc => (hok c (by simp [hc])).size)
    rw [brLoop]
    rw [show dropBytes (byteLen a) ((a ++ b).map low) = some (b.map low) by
      rw [List.map_append, ← ha, dropBytes_append]]
    simp only
    cases hn : findNlBytes (b.map low) with
    | none =>
      left
      have : '\n' ∉ b := by
        intro h
        exact findNl_none hn (List.mem_map.2 ⟨'\n', h, (hok '\n' (by simp [h])).newline.2 rfl⟩)
      exact ⟨a, out, rfl, b, rfl, by rw [withBreaks_none _ _ _ this], fun h => h.resolve_left this⟩
    | some n =>
      obtain ⟨m', r', e, h1, h2⟩ := findNl_some hn
      obtain ⟨m, r0, rfl, rfl, e0⟩ := List.map_eq_append_iff.1 e
      cases r0 with
      | nil => simp at e0
      | cons d r =>
        simp only [List.map_cons, List.cons.injEq] at e0
        obtain ⟨hd, rfl⟩ := e0
        have hd : d = '\n' := (hok d (by simp)).newline.1 hd
        subst hd
        have hm : '\n' ∉ m := fun h => h1 (List.mem_map.2 ⟨_, h, (hok '\n' (by simp)).newline.2 rfl⟩)
        have hbm : byteLen (m.map low) = byteLen m := byteLen_map (fun c hc => (hok c (by simp [hc])).size)
        have hnl : ('\n' : Char).utf8Size = 1 := by decide
        have hln : low '\n' = '\n' := (hok '\n' (by simp)).newline.2 rfl
        rw [← h2, hbm]
        dsimp only
        rw [sliceBytes_append a m ('\n' :: r)]
        rw [show dropBytes (byteLen a + byteLen m + 1) ((a ++ (m ++ '\n' :: r)).map low) = some (r.map low) by
          have := dropBytes_append (a.map low ++ (m.map low ++ ['\n'])) (r.map low)
          rw [byteLen_append, byteLen_append, byteLen_cons, byteLen_nil, ha, hbm, hnl] at this
          rw [← this]
          simp [hln, Nat.add_assoc]]
        simp only
        have hpos : byteLen a + byteLen m + 1 = byteLen (a ++ (m ++ ['\n'])) := by
          rw [byteLen_append, byteLen_append, byteLen_cons, byteLen_nil, hnl]; omega
        have htext : a ++ (m ++ '\n' :: r) = (a ++ (m ++ ['\n'])) ++ r := by simp
        have hlen : r.length < f.length := by simp at hl; omega
        have hstep : ∀ o, out ++ m ++ o ++ ['\n'] ≠ [] := by simp
        -- what the specification says about this newline
        have hspec : Spec.withBreaks br a (m ++ '\n' :: r) =
            m ++ ((if Spec.BreakHere (a ++ m) r then br else []) ++ '\n' :: Spec.withBreaks br (a ++ (m ++ ['\n'])) r) := by
          rw [withBreaks_skip br m a _ hm, Spec.withBreaks]
          simp
        have hgood : (match r.map low with
            | [] => true
            | c :: _ => !(isWs c || c == '|')) = true ↔ ∀ c, r.head? = some c → Spec.isSpace c = false ∧ c ≠ '|' := by
          cases r with
          | nil => simp
          | cons c r =>
            have hc := hok c (by simp)
            have hs : isWs c = Spec.isSpace c := by
              rw [Bool.eq_iff_iff, isWs_iff]; simp [Spec.isSpace]
            simp only [List.map_cons, List.head?_cons, Option.some.injEq, forall_eq', Bool.not_eq_true',
              Bool.or_eq_false_iff, hc.space, hs, beq_eq_false_iff_ne, ne_eq, hc.bar]
        have hmaplow : (a.map low ++ m.map low).map asciiLower = (a ++ m).map Spec.lower := by
          rw [← List.map_append, List.map_map]
          apply List.map_congr_left
          intro c hc
          rw [Function.comp_apply, (hok c (by simp at hc ⊢; rcases hc with h | h <;> simp [h])).ascii, asciiLower_eq]
        have next : ∀ o : Str, (if Spec.BreakHere (a ++ m) r then br else []) = o →
            (∃ x y, brLoop (a ++ (m ++ '\n' :: r)) ((a ++ (m ++ '\n' :: r)).map low) br f (byteLen a + byteLen m + 1)
                (out ++ m ++ o ++ ['\n']) = .ok (byteLen x, y) ∧
              ∃ s, a ++ (m ++ '\n' :: r) = x ++ s ∧ y ++ s = out ++ Spec.withBreaks br a (m ++ '\n' :: r) ∧
                ('\n' ∈ m ++ '\n' :: r ∨ out ≠ [] → y ≠ [])) ∨
            (brLoop (a ++ (m ++ '\n' :: r)) ((a ++ (m ++ '\n' :: r)).map low) br f (byteLen a + byteLen m + 1)
                (out ++ m ++ o ++ ['\n']) = .error sliceErr ∧ Risky (a ++ (m ++ '\n' :: r))) := by
          intro o ho
          rw [hspec, ho, hpos, htext]
          rcases brLoop_spec (br := br) f (a ++ (m ++ ['\n'])) r (out ++ m ++ o ++ ['\n']) (by rw [← htext]; exact hok) hlen with
            ⟨x, y, g1, s, g2, g3, g4⟩ | g
          · left
            exact ⟨x, y, g1, s, g2, by rw [g3]; simp, fun _ => g4 (.inr (hstep _))⟩
          · right; exact g
        by_cases hg : ∀ c, r.head? = some c → Spec.isSpace c = false ∧ c ≠ '|'
        · erw [if_pos (hgood.2 hg)]
          have hst := anyStop_spec (x := a.map low ++ m.map low) (y := '\n' :: r.map low) stopPrefixes_ok
          rw [byteLen_append, ha, hbm] at hst
          rw [show (a.map low ++ m.map low) ++ '\n' :: r.map low = (a ++ (m ++ '\n' :: r)).map low by simp [hln]] at hst
          rcases hst with h | ⟨h, c, hc, hcc⟩
          · rw [h]
            simp only
            apply next
            rw [hmaplow]
            by_cases hq : ∃ p ∈ stopPrefixes, p <:+ (a ++ m).map Spec.lower
            · rw [if_neg (by
                rintro ⟨-, h2⟩
                obtain ⟨p, hp, hpp⟩ := hq
                exact h2 p hp hpp), if_pos (by simpa using hq)]
            · rw [if_pos ⟨hg, fun w hw hww => hq ⟨w, hw, hww⟩⟩, if_neg (by simpa using hq)]
          · rw [h]
            right
            refine ⟨rfl, ?_⟩
            rw [← List.map_append] at hc
            obtain ⟨d, hd, rfl⟩ := List.mem_map.1 hc
            have hdm : d ∈ a ++ (m ++ '\n' :: r) := by simp at hd ⊢; rcases hd with h | h <;> simp [h]
            refine ⟨a ++ m, r, by simp, ⟨d, hd, ?_⟩, hg⟩
            have := (hok d hdm).ascii
            refine Decidable.byContradiction fun hn => ?_
            have h1 : (asciiLower d).toNat < 128 := lower_ascii.2 (by omega)
            rw [← this] at h1
            have := lower_ascii.1 h1
            omega
        · erw [if_neg (fun h => hg (hgood.1 h))]
          have := next [] (by rw [if_neg (fun h => hg h.1)])
          simpa using this

/-- **C45, the part that holds.** Unless the text contains a character outside ASCII before
a newline where a break could be needed, in which case it may panic (**C45_negation**), breaks are inserted exactly where they should
be and nothing else changes.  Of the conversion to lower case it is assumed that it works
character by character, keeps the length of characters and treats ASCII as expected
(`LowerOk`). -/
theorem C45_line_breaks_partial (U : Uni) (low : Char → Char) (text br : Str)
    (hl : U.toLower text = text.map low) (hok : ∀ c ∈ text, LowerOk low c) :
    insertBrs U text br = .ok (Spec.withBreaks br [] text) ∨
      (insertBrs U text br = .error sliceErr ∧ Risky text) := by
  unfold insertBrs
  by_cases hc : text.contains '\n' = true
  · rw [hc, if_neg (c := (!true) = true) nofun]
    simp only [hl]
    rcases brLoop_spec (low := low) (br := br) (' ' :: text.map low) [] text [] (by simpa using hok) (by simp) with
      ⟨x, y, h1, r, h2, h3, h4⟩ | ⟨h, hr⟩
    · left
      rw [List.nil_append, byteLen_nil] at h1
      rw [h1]
      have hy : y ≠ [] := h4 (.inl (by simpa using hc))
      have : y.isEmpty = false := List.isEmpty_eq_false_iff.2 hy
      simp only [this, Bool.false_eq_true, if_false]
      rw [List.nil_append] at h2 h3
      rw [h2, dropBytes_append]
      simp only
      rw [h3, ← h2]
    · right
      rw [List.nil_append, byteLen_nil] at h
      rw [h]
      exact ⟨rfl, by simpa using hr⟩
  · have hn : '\n' ∉ text := by simpa using hc
    left
    rw [if_pos (by simpa using hn), withBreaks_none _ _ _ hn]

theorem lowerOk_ascii {c : Char} (h : c.toNat < 128) : LowerOk Spec.lower c := by
  have h2 : (Spec.lower c).toNat = if 65 ≤ c.toNat ∧ c.toNat ≤ 90 then c.toNat + 32 else c.toNat := by
    unfold Spec.lower
    by_cases hr : 65 ≤ c.toNat ∧ c.toNat ≤ 90
    · rw [if_pos (by simpa using hr), if_pos hr, lower_range hr]
    · rw [if_neg (by simpa using hr), if_neg hr]
  have inj : ∀ d : Char, ¬ (65 ≤ d.toNat ∧ d.toNat ≤ 90) → ¬ (97 ≤ d.toNat ∧ d.toNat ≤ 122) →
      (Spec.lower c = d ↔ c = d) := by
    intro d h3 h4
    constructor
    · intro e
      apply char_toNat_inj
      rw [e] at h2
      split at h2 <;> omega
    · rintro rfl
      apply char_toNat_inj
      rw [h2, if_neg h3]
  refine ⟨lower_size c, ?_, inj _ (by decide) (by decide), inj _ (by decide) (by decide), ?_⟩
  · apply char_toNat_inj
    rw [asciiLower_eq, asciiLower_eq]
    have h5 : (Spec.lower (Spec.lower c)).toNat =
        if 65 ≤ (Spec.lower c).toNat ∧ (Spec.lower c).toNat ≤ 90 then (Spec.lower c).toNat + 32 else (Spec.lower c).toNat := by
      generalize Spec.lower c = d
      unfold Spec.lower
      by_cases hr : 65 ≤ d.toNat ∧ d.toNat ≤ 90
      · rw [if_pos (by simpa using hr), if_pos hr, lower_range hr]
      · rw [if_neg (by simpa using hr), if_neg hr]
    rw [h5, h2]
    repeat' split
    all_goals omega
  · rw [Bool.eq_iff_iff, isWs_iff, isWs_iff, h2]
    split
    · simp [Spec.whiteSpace]; omega
    · rfl

/-- **C45** for texts in ASCII. -/
theorem C45_ascii (U : Uni) (text br : Str) (ha : ∀ c ∈ text, c.toNat < 128)
    (hl : U.toLower text = text.map Spec.lower) : insertBrs U text br = .ok (Spec.withBreaks br [] text) := by
  rcases C45_line_breaks_partial U Spec.lower text br hl (fun c hc => lowerOk_ascii (ha c hc)) with h | ⟨-, u, v, e, ⟨c, hc, h⟩, -⟩
  · exact h
  · have := ha c (by rw [e]; simp [hc]); omega

example : insertBrs demoUni t!"one\ntwo</LI>\nthree<br />\n four\n|five\n" t!"<br>" =
    .ok t!"one<br>\ntwo</LI>\nthree<br />\n four\n|five<br>\n" :=
  (C45_ascii demoUni _ _ (by decide) (by decide)).trans (by decide +kernel)

/-- **C45, negation.** The text before a newline is cut at a fixed number of bytes, which
may be inside a character. -/
theorem C45_negation : insertBrs demoUni t!"éabcd\nfoo" t!"<br>" = .error sliceErr ∧
    isPanic (parseFresh demoEnv 100 demoCfg t!"* éabcd\nfoo") = true := by
  decide +kernel

end Rustextile
