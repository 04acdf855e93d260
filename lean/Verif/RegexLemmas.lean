import Verif.Regex

/-!
# Facts about the regex engine

`Re.all` lists all ways an expression can match at a position, in order of
preference.  The continuation-passing matcher of `Verif/Regex.lean` returns the
first of them that the continuation accepts (`Re.run_eq`).
-/

namespace Rustextile

/-! ## All matches, in order of preference -/

def starAll (body : Cur → Caps → List (Cur × Caps)) (greedy : Bool) :
    Str → Cur → Caps → List (Cur × Caps)
  | [], c, s => [(c, s)]
  | _ :: f, c, s =>
    if greedy then (body c s).flatMap (fun p => starAll body greedy f p.1 p.2) ++ [(c, s)]
    else (c, s) :: (body c s).flatMap (fun p => starAll body greedy f p.1 p.2)

/-- All matches of an expression at a position, in order of preference. -/
def Re.all (U : Uni) : Re → Cur → Caps → List (Cur × Caps)
  | .eps, c, s => [(c, s)]
  | .set neg items, c, s =>
    match c.rest with
    | [] => []
    | x :: xs => if evalSet U neg items x then [(⟨x :: c.pre, xs⟩, s)] else []
  | .seq a b, c, s => (a.all U c s).flatMap (fun p => b.all U p.1 p.2)
  | .alt a b, c, s => a.all U c s ++ b.all U c s
  | .star g r, c, s => starAll (fun c s => r.all U c s) g c.rest c s
  | .grp n r, c, s => (r.all U c s).map (fun p => (p.1, (n, between c p.1) :: p.2))
  | .bref n, c, s =>
    match alLookup n s with
    | none => []
    | some w => if w.isPrefixOf c.rest then [(c.adv w, s)] else []
  | .look neg r, c, s =>
    match (r.all U c s).head? with
    | some (_, s') => if neg then [] else [(c, s')]
    | none => if neg then [(c, s)] else []
  | .behind neg n r, c, s =>
    match c.back n with
    | none => if neg then [(c, s)] else []
    | some b =>
      match (r.all U b s).head? with
      | some (_, s') => if neg then [] else [(c, s')]
      | none => if neg then [(c, s)] else []
  | .bot, c, s => if c.pre.isEmpty then [(c, s)] else []
  | .eot, c, s => if c.rest.isEmpty then [(c, s)] else []
  | .bol, c, s =>
    match c.pre with
    | [] => [(c, s)]
    | x :: _ => if x == '\n' then [(c, s)] else []
  | .eol, c, s =>
    match c.rest with
    | [] => [(c, s)]
    | x :: _ => if x == '\n' then [(c, s)] else []
  | .wordb, c, s => if atWordB U c then [(c, s)] else []

/-- Apply a continuation to the first match it accepts. -/
abbrev firstOf (l : List (Cur × Caps)) (k : K) : Option (Cur × Caps) :=
  l.findSome? (fun p => k p.1 p.2)

theorem firstOf_flatMap (l : List (Cur × Caps)) (g : Cur × Caps → List (Cur × Caps)) (k : K) :
    firstOf (l.flatMap g) k = firstOf l (fun c s => firstOf (g (c, s)) k) := by
  induction l with
  | nil => rfl
  | cons p l ih =>
    simp only [firstOf] at ih ⊢
    rw [List.flatMap_cons, List.findSome?_append, List.findSome?_cons, ih]
    cases List.findSome? (fun p => k p.1 p.2) (g p) <;> rfl

theorem firstOf_cons (c : Cur) (s : Caps) (l : List (Cur × Caps)) (k : K) :
    firstOf ((c, s) :: l) k = (k c s).or (firstOf l k) := by
  simp only [firstOf, List.findSome?_cons]
  cases k c s <;> rfl

theorem firstOf_append (l l' : List (Cur × Caps)) (k : K) :
    firstOf (l ++ l') k = (firstOf l k).or (firstOf l' k) := List.findSome?_append

theorem firstOf_some_head (l : List (Cur × Caps)) :
    firstOf l (fun c s => some (c, s)) = l.head? := by
  cases l <;> rfl

theorem starLoop_eq {body : Cur → Caps → K → Option (Cur × Caps)}
    {ab : Cur → Caps → List (Cur × Caps)}
    (h : ∀ c s k, body c s k = firstOf (ab c s) k) (g : Bool) (k : K) :
    ∀ f c s, starLoop body g k f c s = firstOf (starAll ab g f c s) k
  | [], c, s => by simp [starLoop, starAll, firstOf]
  | _ :: f, c, s => by
    have ih := starLoop_eq h g k f
    rw [starLoop, starAll]
    cases g
    · simp only [Bool.false_eq_true, if_false, h]
      rw [firstOf_cons, firstOf_flatMap]
      simp only [ih]
      cases k c s <;> rfl
    · simp only [if_true, h]
      rw [firstOf_append, firstOf_flatMap, firstOf_cons]
      simp only [ih]
      cases firstOf (ab c s) _ <;> cases k c s <;> rfl

/-- The matcher returns the first match accepted by the continuation. -/
theorem Re.run_eq (U : Uni) (r : Re) : ∀ c s k, r.run U c s k = firstOf (r.all U c s) k := by
  induction r with
  | eps => intro c s k; simp [Re.run, Re.all, firstOf]
  | set neg items =>
    intro c s k
    simp only [Re.run, Re.all]
    cases c.rest with
    | nil => rfl
    | cons x xs => by_cases h : evalSet U neg items x <;> simp [h, firstOf]
  | seq a b iha ihb =>
    intro c s k
    simp only [Re.run, Re.all, iha, ihb, firstOf_flatMap]
  | alt a b iha ihb =>
    intro c s k
    simp only [Re.run, Re.all, iha, ihb, firstOf, List.findSome?_append]
    cases List.findSome? _ (a.all U c s) <;> rfl
  | star g r ih =>
    intro c s k
    simp only [Re.run, Re.all]
    exact starLoop_eq ih g k _ _ _
  | grp n r ih =>
    intro c s k
    simp only [Re.run, Re.all, ih, firstOf, List.findSome?_map]
    rfl
  | bref n =>
    intro c s k
    simp only [Re.run, Re.all]
    cases alLookup n s with
    | none => rfl
    | some w => by_cases h : w.isPrefixOf c.rest <;> simp [h, firstOf]
  | look neg r ih =>
    intro c s k
    simp only [Re.run, Re.all, ih, firstOf_some_head]
    cases (r.all U c s).head? with
    | none => cases neg <;> simp [firstOf]
    | some p => cases neg <;> simp [firstOf]
  | behind neg n r ih =>
    intro c s k
    simp only [Re.run, Re.all]
    cases c.back n with
    | none => cases neg <;> simp [firstOf]
    | some b =>
      simp only [ih, firstOf_some_head]
      cases (r.all U b s).head? with
      | none => cases neg <;> simp [firstOf]
      | some p => cases neg <;> simp [firstOf]
  | bot => intro c s k; simp only [Re.run, Re.all]; split <;> simp [firstOf]
  | eot => intro c s k; simp only [Re.run, Re.all]; split <;> simp [firstOf]
  | bol =>
    intro c s k; simp only [Re.run, Re.all]
    cases c.pre with
    | nil => simp [firstOf]
    | cons x xs => by_cases h : (x == '\n') = true <;> simp [h, firstOf]
  | eol =>
    intro c s k; simp only [Re.run, Re.all]
    cases c.rest with
    | nil => simp [firstOf]
    | cons x xs => by_cases h : (x == '\n') = true <;> simp [h, firstOf]
  | wordb => intro c s k; simp only [Re.run, Re.all]; split <;> simp [firstOf]

theorem Re.matchAt_eq (U : Uni) (r : Re) (c : Cur) : r.matchAt U c = (r.all U c []).head? := by
  rw [Re.matchAt, Re.run_eq, firstOf_some_head]

/-! ## Positions -/

/-- `b` lies after `a` in the same subject, and `w` is the text between them. -/
def Adv (a : Cur) (w : Str) (b : Cur) : Prop := a.rest = w ++ b.rest ∧ b.pre = w.reverse ++ a.pre

theorem Adv.refl (a : Cur) : Adv a [] a := ⟨rfl, rfl⟩

theorem Adv.trans {a b c : Cur} {v w : Str} (h : Adv a v b) (h' : Adv b w c) : Adv a (v ++ w) c := by
  refine ⟨?_, ?_⟩
  · rw [h.1, h'.1, List.append_assoc]
  · rw [h'.2, h.2, List.reverse_append, List.append_assoc]

theorem Adv.between {a b : Cur} {w : Str} (h : Adv a w b) : between a b = w := by
  unfold Rustextile.between
  rw [h.1]
  simp

theorem Adv.len {a b : Cur} {w : Str} (h : Adv a w b) : a.rest.length = w.length + b.rest.length := by
  rw [h.1, List.length_append]

theorem Adv.eq {a b b' : Cur} {w : Str} (h : Adv a w b) (h' : Adv a w b') : b = b' := by
  cases b; cases b'
  have h1 := h.1.symm.trans h'.1
  have h2 := h.2.trans h'.2.symm
  simp only [List.append_cancel_left_eq] at h1
  simp_all

theorem starAll_adv {ab : Cur → Caps → List (Cur × Caps)}
    (h : ∀ c s p, p ∈ ab c s → ∃ w, Adv c w p.1) (g : Bool) :
    ∀ f c s p, p ∈ starAll ab g f c s → ∃ w, Adv c w p.1
  | [], c, s, p, hp => by
    simp [starAll] at hp; subst hp; exact ⟨[], Adv.refl _⟩
  | _ :: f, c, s, p, hp => by
    have hp' : p = (c, s) ∨ p ∈ (ab c s).flatMap (fun p => starAll ab g f p.1 p.2) := by
      unfold starAll at hp
      cases g
      · simpa using hp
      · simp only [if_true, List.mem_append, List.mem_singleton] at hp; exact hp.symm
    rcases hp' with rfl | hp'
    · exact ⟨[], Adv.refl _⟩
    · obtain ⟨q, hq, hpq⟩ := List.mem_flatMap.1 hp'
      obtain ⟨w, hw⟩ := h c s q hq
      obtain ⟨w', hw'⟩ := starAll_adv h g f q.1 q.2 p hpq
      exact ⟨w ++ w', hw.trans hw'⟩

theorem isPrefixOf_drop : ∀ {w s : Str}, w.isPrefixOf s = true → s = w ++ s.drop w.length
  | [], _, _ => rfl
  | _ :: _, [], h => by simp [List.isPrefixOf] at h
  | a :: w, b :: s, h => by
    simp only [List.isPrefixOf, Bool.and_eq_true, beq_iff_eq] at h
    simp [h.1, ← isPrefixOf_drop h.2]

/-- A match moves forward. -/
theorem Re.all_adv (U : Uni) (r : Re) : ∀ c s p, p ∈ r.all U c s → ∃ w, Adv c w p.1 := by
  induction r with
  | eps => intro c s p hp; simp [Re.all] at hp; subst hp; exact ⟨[], Adv.refl _⟩
  | set neg items =>
    intro c s p hp
    simp only [Re.all] at hp
    split at hp
    · simp at hp
    · rename_i x xs hr
      split at hp
      · simp at hp; subst hp; exact ⟨[x], by simp [Adv, hr]⟩
      · simp at hp
  | seq a b iha ihb =>
    intro c s p hp
    obtain ⟨q, hq, hpq⟩ := List.mem_flatMap.1 hp
    obtain ⟨w, hw⟩ := iha c s q hq
    obtain ⟨w', hw'⟩ := ihb _ _ p hpq
    exact ⟨w ++ w', hw.trans hw'⟩
  | alt a b iha ihb =>
    intro c s p hp
    rcases List.mem_append.1 hp with h | h
    · exact iha _ _ _ h
    · exact ihb _ _ _ h
  | star g r ih => intro c s p hp; exact starAll_adv ih g _ _ _ _ hp
  | grp n r ih =>
    intro c s p hp
    obtain ⟨q, hq, rfl⟩ := List.mem_map.1 hp
    exact ih c s q hq
  | bref n =>
    intro c s p hp
    simp only [Re.all] at hp
    split at hp
    · simp at hp
    · rename_i w _
      split at hp
      · rename_i hw
        simp at hp; subst hp
        exact ⟨w, isPrefixOf_drop hw, rfl⟩
      · simp at hp
  | look neg r ih =>
    intro c s p hp
    refine ⟨[], ?_⟩
    simp only [Re.all] at hp
    split at hp <;> cases neg <;> simp at hp <;> subst hp <;> exact Adv.refl _
  | behind neg n r ih =>
    intro c s p hp
    refine ⟨[], ?_⟩
    simp only [Re.all] at hp
    split at hp
    · cases neg <;> simp at hp; subst hp; exact Adv.refl _
    · split at hp <;> cases neg <;> simp at hp <;> subst hp <;> exact Adv.refl _
  | bot => intro c s p hp; refine ⟨[], ?_⟩; simp only [Re.all] at hp; split at hp <;> simp at hp; subst hp; exact Adv.refl _
  | eot => intro c s p hp; refine ⟨[], ?_⟩; simp only [Re.all] at hp; split at hp <;> simp at hp; subst hp; exact Adv.refl _
  | bol =>
    intro c s p hp; refine ⟨[], ?_⟩; simp only [Re.all] at hp
    split at hp
    · simp at hp; subst hp; exact Adv.refl _
    · split at hp <;> simp at hp; subst hp; exact Adv.refl _
  | eol =>
    intro c s p hp; refine ⟨[], ?_⟩; simp only [Re.all] at hp
    split at hp
    · simp at hp; subst hp; exact Adv.refl _
    · split at hp <;> simp at hp; subst hp; exact Adv.refl _
  | wordb => intro c s p hp; refine ⟨[], ?_⟩; simp only [Re.all] at hp; split at hp <;> simp at hp; subst hp; exact Adv.refl _

theorem Re.matchAt_adv {U : Uni} {r : Re} {c e : Cur} {s : Caps} (h : r.matchAt U c = some (e, s)) :
    ∃ w, Adv c w e := by
  rw [Re.matchAt_eq] at h
  exact Re.all_adv U r c [] (e, s) (List.mem_of_mem_head? (by simp [h]))

/-! ## Searching -/

/-- What a successful search says. -/
theorem Re.search_some {U : Uni} {r : Re} : ∀ {rest pre : Str} {b e : Cur} {s : Caps},
    r.search U pre rest = some (b, e, s) →
    (∃ w, Adv ⟨pre, rest⟩ w b) ∧ r.matchAt U b = some (e, s)
  | [], pre, b, e, s, h => by
    unfold Re.search at h
    split at h
    · rename_i e' s' hm
      simp at h; obtain ⟨rfl, rfl, rfl⟩ := h
      exact ⟨⟨[], Adv.refl _⟩, hm⟩
    · simp at h
  | x :: xs, pre, b, e, s, h => by
    unfold Re.search at h
    split at h
    · rename_i e' s' hm
      simp at h; obtain ⟨rfl, rfl, rfl⟩ := h
      exact ⟨⟨[], Adv.refl _⟩, hm⟩
    · obtain ⟨⟨w, hw⟩, hm⟩ := Re.search_some h
      exact ⟨⟨x :: w, by have := hw.1; simp_all, by simp [hw.2]⟩, hm⟩

/-- A failed search: no match anywhere. -/
theorem Re.search_none_iff {U : Uni} {r : Re} : ∀ {rest pre : Str},
    r.search U pre rest = none ↔ ∀ w b, Adv ⟨pre, rest⟩ w b → r.matchAt U b = none
  | [], pre => by
    unfold Re.search
    constructor
    · intro h w b hb
      have : b = ⟨pre, []⟩ := by
        have h1 := hb.1
        have hw : w = [] := by
          cases w with
          | nil => rfl
          | cons _ _ => simp at h1
        subst hw
        exact (Adv.refl _).eq hb |>.symm
      subst this
      split at h
      · simp at h
      · assumption
    · intro h
      rw [h [] ⟨pre, []⟩ (Adv.refl _)]
  | x :: xs, pre => by
    unfold Re.search
    have ih := Re.search_none_iff (U := U) (r := r) (rest := xs) (pre := x :: pre)
    constructor
    · intro h w b hb
      split at h
      · simp at h
      · rename_i hm
        cases w with
        | nil => rw [← (Adv.refl _).eq hb]; exact hm
        | cons y w =>
          have h1 := hb.1
          simp only [List.cons_append, List.cons.injEq] at h1
          refine ih.1 h w b ⟨h1.2, ?_⟩
          rw [hb.2, h1.1]; simp
    · intro h
      rw [h [] _ (Adv.refl _)]
      refine ih.2 ?_
      intro w b hb
      exact h (x :: w) b ⟨by have := hb.1; simp_all, by simp [hb.2]⟩

/-! ## Lists of matches -/

theorem segs_concat {U : Uni} {r : Re} : ∀ (f : Str) (prev : Bool) (gs cur : Cur),
    (∃ w, Adv gs w cur) →
    ((segs U r f prev gs cur).1.map (fun m => m.gap ++ m.whole)).flatten
      ++ (segs U r f prev gs cur).2 = gs.rest
  | [], _, _, _, _ => rfl
  | _ :: f, prev, gs, cur, hw => by
    obtain ⟨w, hw⟩ := hw
    unfold segs
    split
    · rfl
    · rename_i ms me caps hs
      obtain ⟨⟨v, hv⟩, hm⟩ := Re.search_some hs
      obtain ⟨u, hu⟩ := Re.matchAt_adv hm
      have hgs : Adv gs (w ++ v) ms := hw.trans hv
      have step : ∀ (b : Cur) (x : Char) (xs : Str), b.rest = x :: xs → Adv b [x] ⟨x :: b.pre, xs⟩ := by
        intro b x xs h; exact ⟨h, rfl⟩
      simp only [hgs.between, hu.between]
      split
      · split
        · split
          · rfl
          · rename_i x xs hx
            exact segs_concat f prev gs _ ⟨_, (hgs.trans hu).trans (step _ _ _ hx)⟩
        · split
          · simp [hgs.1, hu.1]
          · rename_i x xs hx
            have := segs_concat (U := U) (r := r) f true me ⟨x :: me.pre, xs⟩ ⟨_, step _ _ _ hx⟩
            simp only [List.map_cons, List.flatten_cons, List.append_assoc, this]
            simp [hgs.1, hu.1]
      · have := segs_concat (U := U) (r := r) f true me me ⟨[], Adv.refl _⟩
        simp only [List.map_cons, List.flatten_cons, List.append_assoc, this]
        simp [hgs.1, hu.1]

/-- The matches, the gaps between them and the tail make up the text. -/
theorem Re.matches_concat (U : Uni) (r : Re) (text : Str) :
    ((r.matches U text).1.map (fun m => m.gap ++ m.whole)).flatten ++ (r.matches U text).2 = text :=
  segs_concat _ _ _ _ ⟨[], Adv.refl _⟩

/-- No match: nothing is replaced. -/
theorem Re.matches_none {U : Uni} {r : Re} {text : Str} (h : r.search U [] text = none) :
    r.matches U text = ([], text) := by
  simp [Re.matches, segs, h]

theorem Re.replaceAll_none {U : Uni} {r : Re} {text : Str} (f : Mat → Str)
    (h : r.search U [] text = none) : r.replaceAll U f text = text := by
  simp [Re.replaceAll, Re.matches_none h]

theorem Re.replaceTempl_none {U : Uni} {r : Re} {text : Str} (t : Str)
    (h : r.search U [] text = none) : r.replaceTempl U t text = text :=
  Re.replaceAll_none _ h

theorem Re.split_none {U : Uni} {r : Re} {text : Str} (n : Nat)
    (h : r.search U [] text = none) : r.split U n text = [text] := by
  simp [Re.split, Re.matches_none h]

theorem Re.isMatch_none {U : Uni} {r : Re} {text : Str}
    (h : r.search U [] text = none) : r.isMatch U text = false := by
  simp [Re.isMatch, h]

theorem Re.captures_none {U : Uni} {r : Re} {text : Str}
    (h : r.search U [] text = none) : r.captures U text = none := by
  simp [Re.captures, h]

end Rustextile
