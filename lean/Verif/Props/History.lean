import Verif.Props.Whole

/-!
# Independence of earlier calls, independence of settings: C05, C46, C47
-/

namespace Rustextile

/-! ## C05 -/

/-- `parse` with a valid cache: the same result as on a fresh value, and the cache
stays valid. -/
theorem parse_cache {E : Env} {fuel : Nat} {t : Textile} (hv : Cache.Valid t.cfg.uid t.cache) (text : Str) :
    (t.parse E fuel text).map (·.1) = parseFresh E fuel t.cfg text ∧
    ∀ o t', t.parse E fuel text = .ok (o, t') → t'.cfg = t.cfg ∧ Cache.Valid t'.cfg.uid t'.cache := by
  have h := run_cache ⟨E, t.cfg, fuel⟩ (parseP ⟨E, t.cfg, fuel⟩ text) {} t.cache [] hv (Cache.valid_nil _)
  unfold parseFresh Textile.parse
  obtain ⟨h1, h2⟩ := h
  revert h1 h2
  cases run ⟨E, t.cfg, fuel⟩ (parseP ⟨E, t.cfg, fuel⟩ text) { cache := t.cache } with
  | error e =>
    simp only
    cases run ⟨E, t.cfg, fuel⟩ (parseP ⟨E, t.cfg, fuel⟩ text) { cache := [] } with
    | error e' => simp [noCache, Except.map]
    | ok q => simp [noCache]
  | ok q =>
    simp only
    cases run ⟨E, t.cfg, fuel⟩ (parseP ⟨E, t.cfg, fuel⟩ text) { cache := [] } with
    | error e' => simp [noCache]
    | ok q' =>
      intro h1 h2
      simp only [noCache, Except.ok.injEq, Prod.mk.injEq] at h1
      refine ⟨by simp [Except.map, h1.1], ?_⟩
      intro o t' h
      simp only [Except.ok.injEq, Prod.mk.injEq] at h
      rw [← h.2]
      exact ⟨rfl, h2 q.1 q.2 rfl⟩

/-- A setter other than `set_uid` keeps the token. -/
theorem Setter.apply_uid {s : Setter} (h : ∀ b, s ≠ .uid b) (c : Cfg) : (s.apply c).uid = c.uid := by
  cases s <;> first | rfl | exact absurd rfl (h _)

/-- The settings after a sequence of calls. -/
def settingsAfter (c : Cfg) (cs : List Call) : Cfg :=
  cs.foldl (fun c call => match call with | .set s => s.apply c | .parse _ => c) c

theorem session_valid {E : Env} {fuel : Nat} : ∀ {cs : List Call} {t t' : Textile} {os : List Str},
    Cache.Valid t.cfg.uid t.cache → (∀ b, Call.set (.uid b) ∉ cs) →
    session E fuel t cs = .ok (os, t') →
    t'.cfg = settingsAfter t.cfg cs ∧ Cache.Valid t'.cfg.uid t'.cache
  | [], t, t', os, hv, _, h => by
    simp [session] at h; rw [← h.2]; exact ⟨rfl, hv⟩
  | .set s :: cs, t, t', os, hv, hu, h => by
    rw [session] at h
    have hs : ∀ b, s ≠ .uid b := by rintro b rfl; exact hu b (by simp)
    have := session_valid (t := { t with cfg := s.apply t.cfg })
      (by rw [show (Setter.apply s t.cfg).uid = t.cfg.uid from Setter.apply_uid hs _]; exact hv)
      (fun b hb => hu b (by simp [hb])) h
    exact this
  | .parse text :: cs, t, t', os, hv, hu, h => by
    rw [session] at h
    have hp := (parse_cache (E := E) (fuel := fuel) hv text).2
    cases hq : t.parse E fuel text with
    | error e => rw [hq] at h; simp at h
    | ok q =>
      obtain ⟨o, t1⟩ := q
      rw [hq] at h
      obtain ⟨hc, hv1⟩ := hp o t1 hq
      cases hr : session E fuel t1 cs with
      | error e => simp [hr] at h
      | ok q2 =>
        obtain ⟨os', t2⟩ := q2
        simp [hr] at h
        have := session_valid hv1 (fun b hb => hu b (by simp [hb])) hr
        rw [← h.2]
        refine ⟨?_, this.2⟩
        rw [this.1, hc]; rfl

/-- **C05** (part: no `set_uid` after the first call).  Build a value with any
setters, make any calls on it (`parse` calls, all setters except `set_uid`):
the next `parse` returns what a fresh value with the resulting settings returns. -/
theorem C05_history_partial (E : Env) (fuel : Nat) (base : Str) (ss : List Setter) (cs : List Call)
    (hu : ∀ b, Call.set (.uid b) ∉ cs) (os : List Str) (t : Textile)
    (h : session E fuel { cfg := built base ss } cs = .ok (os, t)) (text : Str) :
    (t.parse E fuel text).map (·.1) = parseFresh E fuel (settingsAfter (built base ss) cs) text := by
  obtain ⟨hc, hv⟩ := session_valid (t := { cfg := built base ss }) (Cache.valid_nil _) hu h
  rw [← hc]
  exact (parse_cache hv text).1

/-- A session meeting the hypotheses, with two earlier calls and a setter. -/
example : ∃ os t, session demoEnv 100 { cfg := built t!"abc" [] }
    [.parse t!"\"a\":b", .set (.restricted true), .parse t!"c"] = .ok (os, t) ∧
    os = [t!"<p><a href=\"b\">a</a></p>", t!"<p>c</p>"] := by
  have : ((session demoEnv 100 { cfg := built t!"abc" [] }
    [.parse t!"\"a\":b", .set (.restricted true), .parse t!"c"]).map (·.1)) =
      .ok [t!"<p><a href=\"b\">a</a></p>", t!"<p>c</p>"] := by decide +kernel
  revert this
  cases session demoEnv 100 { cfg := built t!"abc" [] }
    [.parse t!"\"a\":b", .set (.restricted true), .parse t!"c"] with
  | error e => intro h; simp [Except.map] at h
  | ok q => intro h; exact ⟨q.1, q.2, rfl, by simpa [Except.map] using h⟩

/-- **C05 fails in general**: after `set_uid` on a value that has already parsed a
link, links are no longer recognised. -/
theorem C05_negation : ∃ (E : Env) (fuel : Nat) (base b text : Str) (cs : List Call),
    (match session E fuel { cfg := built base [] } (cs ++ [.set (.uid b)]) with
     | .ok (_, t) => (t.parse E fuel text).map (·.1)
     | .error e => .error e) ≠
    parseFresh E fuel (settingsAfter (built base []) (cs ++ [.set (.uid b)])) text := by
  refine ⟨demoEnv, 100, t!"abc", t!"def", t!"\"a\":b", [.parse t!"\"a\":b"], ?_⟩
  decide +kernel

/-! ## C46 -/

/-- Two setters set the same option. -/
def Setter.same : Setter → Setter → Prop
  | .gettingImageSize _, .gettingImageSize _ => True
  | .blockTags _, .blockTags _ => True
  | .htmlKind _, .htmlKind _ => True
  | .restricted _, .restricted _ => True
  | .lite _, .lite _ => True
  | .images _, .images _ => True
  | .rel _, .rel _ => True
  | .rawBlocks _, .rawBlocks _ => True
  | .sanitize _, .sanitize _ => True
  | .uid _, .uid _ => True
  | _, _ => False

/-- **C46.** Setters of different options commute; of two calls of the same setter
the last one wins. -/
theorem C46_setters (s s' : Setter) (c : Cfg) :
    (¬ s.same s' → s.apply (s'.apply c) = s'.apply (s.apply c)) ∧
    (s.same s' → s'.apply (s.apply c) = s'.apply c) := by
  cases s <;> cases s' <;> simp [Setter.same, Setter.apply, Cfg.withUid]

example : ¬ (Setter.lite true).same (.images false) ∧ (Setter.lite true).same (.lite false) := by
  simp [Setter.same]

/-- The value of the last of the calls that `f` selects, or `d`. -/
def lastCall {α : Type} (f : Setter → Option α) (d : α) (ss : List Setter) : α := (ss.filterMap f).getLast?.getD d

theorem lastCall_cons {α : Type} (f : Setter → Option α) (d : α) (s : Setter) (ss : List Setter) :
    lastCall f d (s :: ss) = lastCall f ((f s).getD d) ss := by
  unfold lastCall
  cases hs : f s with
  | none => rw [List.filterMap_cons_none hs]; rfl
  | some v =>
    rw [List.filterMap_cons_some hs]
    cases hl : ss.filterMap f with
    | nil => rfl
    | cons x l =>
      rw [List.getLast?_cons_cons]
      obtain ⟨z, hz⟩ : ∃ z, (x :: l).getLast? = some z := ⟨_, List.getLast?_eq_some_getLast (by simp)⟩
      rw [hz]; rfl

theorem lastCall_none {α : Type} (d : α) (ss : List Setter) : lastCall (fun _ => none) d ss = d := by
  unfold lastCall
  rw [show ss.filterMap (fun _ => (none : Option α)) = [] by simp]
  rfl

theorem lastCall_fold {α : Type} {f : Setter → Option α} {g : Cfg → α} (h : ∀ s c, g (s.apply c) = (f s).getD (g c)) :
    ∀ (ss : List Setter) (c : Cfg), g (ss.foldl (fun c s => s.apply c) c) = lastCall f (g c) ss
  | [], c => rfl
  | s :: ss, c => by
    rw [List.foldl_cons, lastCall_fold h ss, h, lastCall_cons]

/-- **C46.** After any sequence of calls of setters every option has the value given to it in
the last call of its setter, or its default if there was none: not restricted, block tags
on, not lite, images on, no image sizes, HTML5, no `rel`, no sanitizer.  Only `set_uid`
changes the token and the prefix of identifiers. -/
theorem C46_options (base : Str) (ss : List Setter) :
    (built base ss).restricted = lastCall (fun | .restricted v => some v | _ => none) false ss ∧
    (built base ss).blockTags = lastCall (fun | .blockTags v => some v | _ => none) true ss ∧
    (built base ss).lite = lastCall (fun | .lite v => some v | _ => none) false ss ∧
    (built base ss).noimage = !lastCall (fun | .images v => some v | _ => none) true ss ∧
    (built base ss).getSizes = lastCall (fun | .gettingImageSize v => some v | _ => none) false ss ∧
    (built base ss).html5 = lastCall (fun | .htmlKind v => some v | _ => none) true ss ∧
    (built base ss).rel = lastCall (fun | .rel v => some v | _ => none) none ss ∧
    (built base ss).sanitizer = lastCall (fun | .sanitize v => some v | _ => none) none ss ∧
    (built base ss).uid = t!"textileRef:" ++ lastCall (fun | .uid v => some v | _ => none) base ss ++ t!":" ∧
    (built base ss).linkPrefix = lastCall (fun | .uid v => some v | _ => none) base ss ++ t!"-" ∧
    (built base ss).maxSpanDepth = 5 ∧ (built base ss).alignClass = none := by
  have hno : (fun c : Cfg => !c.noimage) (built base ss) = lastCall (fun | .images v => some v | _ => none) true ss :=
    lastCall_fold (g := fun c => !c.noimage) (by intro s c; cases s <;> simp [Setter.apply, Cfg.withUid]) ss (Cfg.default base)
  have hu : ∀ ss c b, c.uid = t!"textileRef:" ++ b ++ t!":" → c.linkPrefix = b ++ t!"-" →
      (ss.foldl (fun c s => Setter.apply s c) c).uid = t!"textileRef:" ++ lastCall (fun | .uid v => some v | _ => none) b ss ++ t!":" ∧
      (ss.foldl (fun c s => Setter.apply s c) c).linkPrefix = lastCall (fun | .uid v => some v | _ => none) b ss ++ t!"-" := by
    intro ss
    induction ss with
    | nil => intro c b h1 h2; exact ⟨h1, h2⟩
    | cons s ss ih =>
      intro c b h1 h2
      rw [List.foldl_cons]
      cases s with
      | uid v =>
        have := ih (c.withUid v) v rfl rfl
        simp only [lastCall_cons]; exact this
      | _ => simp only [lastCall_cons]; exact ih _ b h1 h2
  obtain ⟨u1, u2⟩ := hu ss (Cfg.default base) base rfl rfl
  refine ⟨?_, ?_, ?_, ?_, ?_, ?_, ?_, ?_, u1, u2, ?_, ?_⟩
  · exact lastCall_fold (g := Cfg.restricted) (by intro s c; cases s <;> rfl) ss (Cfg.default base)
  · exact lastCall_fold (g := Cfg.blockTags) (by intro s c; cases s <;> rfl) ss (Cfg.default base)
  · exact lastCall_fold (g := Cfg.lite) (by intro s c; cases s <;> rfl) ss (Cfg.default base)
  · rw [← hno]; simp
  · exact lastCall_fold (g := Cfg.getSizes) (by intro s c; cases s <;> rfl) ss (Cfg.default base)
  · exact lastCall_fold (g := Cfg.html5) (by intro s c; cases s <;> rfl) ss (Cfg.default base)
  · exact lastCall_fold (g := Cfg.rel) (by intro s c; cases s <;> rfl) ss (Cfg.default base)
  · exact lastCall_fold (g := Cfg.sanitizer) (by intro s c; cases s <;> rfl) ss (Cfg.default base)
  · exact lastCall_fold (f := fun _ => none) (g := Cfg.maxSpanDepth) (by intro s c; cases s <;> rfl) ss (Cfg.default base) |>.trans
      (lastCall_none _ _)
  · exact lastCall_fold (f := fun _ => none) (g := Cfg.alignClass) (by intro s c; cases s <;> rfl) ss (Cfg.default base) |>.trans
      (lastCall_none _ _)

example : (built t!"abc" [.images false, .lite true, .images true, .uid t!"x"]).noimage = false ∧
    (built t!"abc" [.images false, .lite true, .images true, .uid t!"x"]).uid = t!"textileRef:x:" :=
  ⟨(C46_options _ _).2.2.2.1.trans rfl, (C46_options _ _).2.2.2.2.2.2.2.2.1.trans rfl⟩

/-! ## C47 -/

set_option smartUnfolding false in
theorem parseBody_rawBlocks (E : Env) (fuel : Nat) (cfg : Cfg) (b : Bool) :
    parseBody ⟨E, { cfg with rawBlocks := b }, fuel⟩ = parseBody ⟨E, cfg, fuel⟩ := by
  with_unfolding_all rfl

theorem run_rawBlocks (E : Env) (fuel : Nat) (cfg : Cfg) (b : Bool) {α : Type}
    (p : Prog α) : ∀ w, run ⟨E, { cfg with rawBlocks := b }, fuel⟩ p w = run ⟨E, cfg, fuel⟩ p w := by
  induction p with
  | ret a => intro w; rfl
  | fail e => intro w; rfl
  | shelve kd v k ih => intro w; simp only [run, ih]
  | cacheRef kd v k ih => intro w; simp only [run, ih]
  | incLink k ih => intro w; simp only [run, ih]
  | setFootnote a b k ih => intro w; simp only [run, ih]
  | setAux g k ih => intro w; simp only [run, ih]
  | spanEnter k ih => intro w; simp only [run, ih]
  | spanLeave k ih => intro w; simp only [run, ih]
  | getSt k ih => intro w; simp only [run, ih]
  | getPat s k ih => intro w; simp only [run, ih]
  | probe u k ih => intro w; simp only [run, ih]

/-- **C47 fails**: whatever the text and the other settings, calling
`set_raw_blocks` makes no difference to the output. -/
theorem C47_negation (E : Env) (fuel : Nat) (cfg : Cfg) (b : Bool) (text : Str) :
    parseFresh E fuel ((Setter.rawBlocks b).apply cfg) text = parseFresh E fuel cfg text := by
  by_cases hb : Spec.Blank text
  · unfold parseFresh; rw [C01_blank _ _ _ _ hb, C01_blank _ _ _ _ hb]
  · unfold parseFresh
    rw [parse_nonblank hb, parse_nonblank hb]
    change (match (match run ⟨E, { cfg with rawBlocks := b }, fuel⟩
          (parseBody ⟨E, { cfg with rawBlocks := b }, fuel⟩ (prepare ⟨E, cfg, fuel⟩ text)) _ with
        | .ok (b, w) => .ok (finish ⟨E, cfg, fuel⟩ b, _)
        | .error e => .error e : R (Str × Textile)) with | .ok (s, _) => _ | .error e => _) = _
    rw [run_rawBlocks, parseBody_rawBlocks]
    cases run ⟨E, cfg, fuel⟩ (parseBody ⟨E, cfg, fuel⟩ (prepare ⟨E, cfg, fuel⟩ text)) {} with
    | error e => rfl
    | ok q => rfl

end Rustextile
