import Verif.Api

/-!
# Facts about programs and their execution
-/

namespace Rustextile

theorem Prog.bind_eq {α β : Type} (p : Prog α) (f : α → Prog β) : p >>= f = p.bind f := rfl
theorem Prog.pure_eq {α : Type} (a : α) : (pure a : Prog α) = .ret a := rfl

theorem Prog.bind_ret {α : Type} (p : Prog α) : p.bind .ret = p := by
  induction p with
  | ret a => rfl
  | fail e => rfl
  | shelve kd v k ih => simp only [Prog.bind, ih]
  | cacheRef kd v k ih => simp only [Prog.bind, ih]
  | incLink k ih => simp only [Prog.bind, ih]
  | setFootnote a b k ih => simp only [Prog.bind, ih]
  | setAux g k ih => simp only [Prog.bind, ih]
  | spanEnter k ih => simp only [Prog.bind, ih]
  | spanLeave k ih => simp only [Prog.bind, ih]
  | getSt k ih => simp only [Prog.bind, ih]
  | getPat s k ih => simp only [Prog.bind, ih]
  | probe u k ih => simp only [Prog.bind, ih]

theorem Prog.bind_assoc {α β γ : Type} (p : Prog α) (f : α → Prog β) (g : β → Prog γ) :
    (p.bind f).bind g = p.bind (fun a => (f a).bind g) := by
  induction p with
  | ret a => rfl
  | fail e => rfl
  | shelve kd v k ih => simp only [Prog.bind, ih]
  | cacheRef kd v k ih => simp only [Prog.bind, ih]
  | incLink k ih => simp only [Prog.bind, ih]
  | setFootnote a b k ih => simp only [Prog.bind, ih]
  | setAux g k ih => simp only [Prog.bind, ih]
  | spanEnter k ih => simp only [Prog.bind, ih]
  | spanLeave k ih => simp only [Prog.bind, ih]
  | getSt k ih => simp only [Prog.bind, ih]
  | getPat s k ih => simp only [Prog.bind, ih]
  | probe u k ih => simp only [Prog.bind, ih]

instance : LawfulMonad Prog := LawfulMonad.mk'
  (id_map := fun x => Prog.bind_ret x)
  (pure_bind := fun _ _ => rfl)
  (bind_assoc := fun x f g => Prog.bind_assoc x f g)

/-- Running a sequence. -/
theorem run_bind (C : Ctx) {α β : Type} (p : Prog α) (f : α → Prog β) : ∀ w,
    run C (p >>= f) w = match run C p w with
      | .ok (a, w') => run C (f a) w'
      | .error e => .error e := by
  change ∀ w, run C (p.bind f) w = _
  induction p with
  | ret a => intro w; rfl
  | fail e => intro w; rfl
  | shelve kd v k ih => intro w; simp only [Prog.bind, run, ih]
  | cacheRef kd v k ih => intro w; simp only [Prog.bind, run, ih]
  | incLink k ih => intro w; simp only [Prog.bind, run, ih]
  | setFootnote a b k ih => intro w; simp only [Prog.bind, run, ih]
  | setAux g k ih => intro w; simp only [Prog.bind, run, ih]
  | spanEnter k ih => intro w; simp only [Prog.bind, run, ih]
  | spanLeave k ih => intro w; simp only [Prog.bind, run, ih]
  | getSt k ih => intro w; simp only [Prog.bind, run, ih]
  | getPat s k ih => intro w; simp only [Prog.bind, run, ih]
  | probe u k ih => intro w; simp only [Prog.bind, run, ih]

theorem run_pure (C : Ctx) {α : Type} (a : α) (w : World) : run C (pure a : Prog α) w = .ok (a, w) := rfl

theorem run_ofR_ok (C : Ctx) {α : Type} (a : α) (w : World) :
    run C (Prog.ofR (.ok a)) w = .ok (a, w) := rfl

/-- Running a sequence whose first part succeeds. -/
theorem run_bind_ok {C : Ctx} {α β : Type} {p : Prog α} {f : α → Prog β} {w w' : World} {a : α}
    (h : run C p w = .ok (a, w')) : run C (p >>= f) w = run C (f a) w' := by
  rw [run_bind, h]

/-- A sequence that succeeds has succeeding parts. -/
theorem run_bind_inv {C : Ctx} {α β : Type} {p : Prog α} {f : α → Prog β} {w w' : World} {b : β}
    (h : run C (p >>= f) w = .ok (b, w')) :
    ∃ a w1, run C p w = .ok (a, w1) ∧ run C (f a) w1 = .ok (b, w') := by
  rw [run_bind] at h
  cases hp : run C p w with
  | error e => rw [hp] at h; simp at h
  | ok q => obtain ⟨a, w1⟩ := q; rw [hp] at h; exact ⟨a, w1, rfl, h⟩

/-- The events of a sequence. -/
theorem trace_bind (C : Ctx) {α β : Type} (p : Prog α) (f : α → Prog β) : ∀ w,
    trace C (p >>= f) w = trace C p w ++ match run C p w with
      | .ok (a, w') => trace C (f a) w'
      | .error _ => [] := by
  change ∀ w, trace C (p.bind f) w = _
  induction p with
  | ret a => intro w; rfl
  | fail e => intro w; rfl
  | shelve kd v k ih => intro w; simp only [Prog.bind, run, trace, ih, List.cons_append]
  | cacheRef kd v k ih => intro w; simp only [Prog.bind, run, trace, ih, List.cons_append]
  | incLink k ih => intro w; simp only [Prog.bind, run, trace, ih, List.cons_append]
  | setFootnote a b k ih => intro w; simp only [Prog.bind, run, trace, ih]
  | setAux g k ih => intro w; simp only [Prog.bind, run, trace, ih]
  | spanEnter k ih => intro w; simp only [Prog.bind, run, trace, ih]
  | spanLeave k ih => intro w; simp only [Prog.bind, run, trace, ih]
  | getSt k ih => intro w; simp only [Prog.bind, run, trace, ih]
  | getPat s k ih => intro w; simp only [Prog.bind, run, trace, ih]
  | probe u k ih => intro w; simp only [Prog.bind, run, trace, ih, List.cons_append]

/-! ## The regex cache -/

/-- Every pattern in the cache is the one that would be compiled now. -/
def Cache.Valid (uid : Str) (c : Cache) : Prop := ∀ s re, alLookup s c = some re → re = mkPat uid s

theorem Cache.valid_nil (uid : Str) : Cache.Valid uid [] := by
  intro s re h; simp [alLookup] at h

theorem Cache.valid_cons {uid : Str} {c : Cache} (h : Cache.Valid uid c) (s : Site) :
    Cache.Valid uid ((s, mkPat uid s) :: c) := by
  intro s' re hl
  unfold alLookup at hl
  split at hl
  · rename_i hs; subst hs; simp at hl; exact hl.symm
  · exact h s' re hl

/-- Result and final state of a run, without the cache. -/
def noCache {α : Type} (r : R (α × World)) : R (α × PState) :=
  match r with
  | .ok (a, w) => .ok (a, w.st)
  | .error e => .error e

/-- With a valid cache, the result of a run does not depend on the cache, and the
cache stays valid. -/
theorem run_cache (C : Ctx) {α : Type} (p : Prog α) : ∀ (st : PState) (c c' : Cache),
    Cache.Valid C.cfg.uid c → Cache.Valid C.cfg.uid c' →
    noCache (run C p ⟨st, c⟩) = noCache (run C p ⟨st, c'⟩) ∧
    ∀ a w, run C p ⟨st, c⟩ = .ok (a, w) → Cache.Valid C.cfg.uid w.cache := by
  induction p with
  | ret a =>
    intro st c c' h h'
    refine ⟨rfl, ?_⟩
    intro a w hw; simp [run] at hw; rw [← hw.2]; exact h
  | fail e =>
    intro st c c' h h'
    exact ⟨rfl, by intro a w hw; simp [run] at hw⟩
  | shelve kd v k ih => intro st c c' h h'; exact ih _ _ _ _ h h'
  | cacheRef kd v k ih => intro st c c' h h'; exact ih _ _ _ _ h h'
  | incLink k ih => intro st c c' h h'; exact ih _ _ _ _ h h'
  | setFootnote a b k ih => intro st c c' h h'; exact ih _ _ _ h h'
  | setAux g k ih => intro st c c' h h'; exact ih _ _ _ h h'
  | spanEnter k ih => intro st c c' h h'; exact ih _ _ _ _ h h'
  | spanLeave k ih => intro st c c' h h'; exact ih _ _ _ h h'
  | getSt k ih => intro st c c' h h'; exact ih _ _ _ _ h h'
  | getPat s k ih =>
    intro st c c' h h'
    have key : ∀ d : Cache, Cache.Valid C.cfg.uid d →
        ∃ d', Cache.Valid C.cfg.uid d' ∧
          run C (.getPat s k) ⟨st, d⟩ = run C (k (mkPat C.cfg.uid s)) ⟨st, d'⟩ := by
      intro d hd
      simp only [run, World.getPat]
      cases hl : alLookup s d with
      | some re => rw [← hd s re hl]; exact ⟨d, hd, rfl⟩
      | none => exact ⟨_, Cache.valid_cons hd s, rfl⟩
    obtain ⟨d, hd, e⟩ := key c h
    obtain ⟨d', hd', e'⟩ := key c' h'
    rw [e, e']
    exact ih _ _ _ _ hd hd'
  | probe u k ih => intro st c c' h h'; exact ih _ _ _ _ h h'

end Rustextile
