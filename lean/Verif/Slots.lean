import Verif.Specials
import Verif.InlineText

/-!
# Texts with inline elements, some of which have been set aside
-/

namespace Rustextile

open Prog

/-- An inline element, or the placeholder of one that has been set aside. -/
inductive Slot where
  | inl (i : Spec.Inline)
  | key (n : Nat) (v : Str)

def Slot.str (uid : Str) : Slot → Str
  | .inl i => i.source
  | .key n _ => shelfKey uid n

def Slot.html : Slot → Str
  | .inl i => i.html
  | .key _ v => v

def slotsText (uid : Str) (L : List (Slot × Str)) : Str := L.flatMap (fun p => p.1.str uid ++ p.2)

theorem slotsText_cons (uid : Str) (p : Slot × Str) (L : List (Slot × Str)) :
    slotsText uid (p :: L) = p.1.str uid ++ (p.2 ++ slotsText uid L) := by simp [slotsText]

/-- The selected elements are set aside; `sel` gives the text and what is stored. -/
def stage (sel : Slot → Option (Str × Str)) (uid : Str) : PState → List (Slot × Str) → List (Slot × Str) × PState
  | σ, [] => ([], σ)
  | σ, (s, a) :: L =>
    match sel s with
    | some (_, v) => ((.key (σ.refIndex + 1) v, a) :: (stage sel uid (σ.shelved uid v) L).1, (stage sel uid (σ.shelved uid v) L).2)
    | none => ((s, a) :: (stage sel uid σ L).1, (stage sel uid σ L).2)

theorem stage_some {sel : Slot → Option (Str × Str)} {uid : Str} {σ : PState} {s : Slot} {a c v : Str} {L : List (Slot × Str)}
    (h : sel s = some (c, v)) : stage sel uid σ ((s, a) :: L) =
      ((.key (σ.refIndex + 1) v, a) :: (stage sel uid (σ.shelved uid v) L).1, (stage sel uid (σ.shelved uid v) L).2) := by
  rw [stage, h]

theorem stage_none {sel : Slot → Option (Str × Str)} {uid : Str} {σ : PState} {s : Slot} {a : Str} {L : List (Slot × Str)}
    (h : sel s = none) : stage sel uid σ ((s, a) :: L) = ((s, a) :: (stage sel uid σ L).1, (stage sel uid σ L).2) := by
  rw [stage, h]

/-! ## What a stage leaves -/

/-- A placeholder stands for a text: it has been set aside as it is, or with a placeholder for
an address in it. -/
def Stands (uid : Str) (σ : PState) (n : Nat) (v : Str) : Prop :=
  (alLookup (shelfKey uid n) σ.shelf = some v ∧ (':' ∉ v ∨ Sealed uid v)) ∨ ∃ m o a z, m ≤ σ.refIndex ∧ alLookup m σ.refCache = some o ∧
    alLookup (shelfKey uid n) σ.shelf = some (a ++ '"' :: (urlTok uid m ++ z)) ∧ v = a ++ '"' :: (o ++ z) ∧ ':' ∉ a ∧ ':' ∉ z

theorem Stands.mono {uid : Str} {σ σ' : PState} {n : Nat} {v : Str} (h : Stands uid σ n v) (hn : n ≤ σ.refIndex) (ha : Agrees uid σ σ')
    (hi : σ.refIndex ≤ σ'.refIndex) : Stands uid σ' n v := by
  rcases h with h | ⟨m, o, a, z, h1, h2, h3, h4⟩
  · exact .inl ⟨by rw [(ha n hn).2, h.1], h.2⟩
  · exact .inr ⟨m, o, a, z, Nat.le_trans h1 hi, by rw [(ha m h1).1, h2], by rw [(ha n hn).2, h3], h4⟩

/-- The placeholders stand for what is said. -/
def KeysOk (uid : Str) (σ : PState) (L : List (Slot × Str)) : Prop :=
  ∀ p ∈ L, ∀ n v, p.1 = .key n v → n ≤ σ.refIndex ∧ Stands uid σ n v

theorem KeysOk.mono {uid : Str} {σ σ' : PState} {L : List (Slot × Str)} (h : KeysOk uid σ L) (hg : Grow uid σ σ') : KeysOk uid σ' L := by
  intro p hp n v e
  obtain ⟨h1, h2⟩ := h p hp n v e
  exact ⟨Nat.le_trans h1 hg.index, h2.mono h1 hg.agrees hg.index⟩

theorem shelved_aux (uid v : Str) (σ : PState) : (σ.shelved uid v).aux = σ.aux := rfl

theorem stage_grow {sel : Slot → Option (Str × Str)} {uid : Str} : ∀ (L : List (Slot × Str)) (σ : PState),
    Grow uid σ (stage sel uid σ L).2 ∧ (stage sel uid σ L).2.aux = σ.aux ∧ (stage sel uid σ L).2.refIndex =
      σ.refIndex + L.countP (fun p => (sel p.1).isSome)
  | [], σ => ⟨Grow.refl _ _, rfl, rfl⟩
  | (s, a) :: L, σ => by
    cases h : sel s with
    | none =>
      rw [stage_none h]
      obtain ⟨h1, h2, h3⟩ := stage_grow (sel := sel) (uid := uid) L σ
      exact ⟨h1, h2, by rw [h3]; simp [h]⟩
    | some q =>
      obtain ⟨c, v⟩ := q
      rw [stage_some h]
      obtain ⟨h1, h2, h3⟩ := stage_grow (sel := sel) (uid := uid) L (σ.shelved uid v)
      refine ⟨(Grow.shelved uid v σ).trans h1, h2, ?_⟩
      simp only
      rw [h3]
      simp [h, PState.shelved]; omega

theorem stage_keys {sel : Slot → Option (Str × Str)} {uid : Str} : ∀ (L : List (Slot × Str)) (σ : PState),
    (∀ p ∈ L, ∀ c v, sel p.1 = some (c, v) → ':' ∉ v ∨ Sealed uid v) → KeysOk uid σ L →
    KeysOk uid (stage sel uid σ L).2 (stage sel uid σ L).1
  | [], σ, _, _ => by intro p hp; cases hp
  | (s, a) :: L, σ, hv, hk => by
    have hv' : ∀ p ∈ L, ∀ c v, sel p.1 = some (c, v) → ':' ∉ v ∨ Sealed uid v := fun p hp => hv p (by simp [hp])
    have hL : KeysOk uid σ L := fun p hp => hk p (by simp [hp])
    cases h : sel s with
    | none =>
      rw [stage_none h]
      intro p hp n v e
      rcases List.mem_cons.1 hp with rfl | hp
      · have hg := (stage_grow (sel := sel) (uid := uid) L σ).1
        obtain ⟨h1, h2⟩ := hk (s, a) (by simp) n v e
        exact ⟨Nat.le_trans h1 hg.index, h2.mono h1 hg.agrees hg.index⟩
      · exact stage_keys L σ hv' hL p hp n v e
    | some q =>
      obtain ⟨c, v'⟩ := q
      rw [stage_some h]
      intro p hp n v e
      rcases List.mem_cons.1 hp with rfl | hp
      · injection e with e1 e2
        subst e1 e2
        have hg := (stage_grow (sel := sel) (uid := uid) L (σ.shelved uid v')).1
        have h1 : σ.refIndex + 1 ≤ (σ.shelved uid v').refIndex := by simp [PState.shelved]
        exact ⟨Nat.le_trans h1 hg.index, .inl ⟨by rw [(hg.agrees _ h1).2, shelved_lookup], hv (s, a) (by simp) c v' h⟩⟩
      · exact stage_keys L _ hv' (hL.mono (Grow.shelved uid v' σ)) p hp n v e

/-- Every element of the result is one of the elements that are not selected, or a placeholder. -/
theorem stage_mem {sel : Slot → Option (Str × Str)} {uid : Str} : ∀ {L : List (Slot × Str)} {σ : PState} {p : Slot × Str},
    p ∈ (stage sel uid σ L).1 → (p ∈ L ∧ sel p.1 = none) ∨ ∃ q ∈ L, ∃ n c v, sel q.1 = some (c, v) ∧ p = (.key n v, q.2)
  | [], _, _, h => by cases h
  | (s, a) :: L, σ, p, hp => by
    cases h : sel s with
    | none =>
      rw [stage_none h] at hp
      rcases List.mem_cons.1 hp with rfl | hp
      · exact .inl ⟨by simp, h⟩
      · rcases stage_mem hp with ⟨h1, h2⟩ | ⟨q, h1, h2⟩
        · exact .inl ⟨by simp [h1], h2⟩
        · exact .inr ⟨q, by simp [h1], h2⟩
    | some q =>
      obtain ⟨c, v⟩ := q
      rw [stage_some h] at hp
      rcases List.mem_cons.1 hp with rfl | hp
      · exact .inr ⟨(s, a), by simp, _, c, v, h, rfl⟩
      · rcases stage_mem hp with ⟨h1, h2⟩ | ⟨q, h1, h2⟩
        · exact .inl ⟨by simp [h1], h2⟩
        · exact .inr ⟨q, by simp [h1], h2⟩

theorem stage_html {sel : Slot → Option (Str × Str)} {uid : Str} (hs : ∀ s c v, sel s = some (c, v) → v = s.html) :
    ∀ (L : List (Slot × Str)) (σ : PState), (stage sel uid σ L).1.map (fun p => (p.1.html, p.2)) = L.map (fun p => (p.1.html, p.2))
  | [], _ => rfl
  | (s, a) :: L, σ => by
    cases h : sel s with
    | none => rw [stage_none h, List.map_cons, List.map_cons, stage_html hs L σ]
    | some q =>
      obtain ⟨c, v⟩ := q
      rw [stage_some h, List.map_cons, List.map_cons, stage_html hs L _, hs s c v h]
      rfl

theorem stage_after {sel : Slot → Option (Str × Str)} {uid : Str} :
    ∀ (L : List (Slot × Str)) (σ : PState), (stage sel uid σ L).1.map (·.2) = L.map (·.2)
  | [], _ => rfl
  | (s, a) :: L, σ => by
    cases h : sel s with
    | none => rw [stage_none h, List.map_cons, List.map_cons, stage_after L σ]
    | some q =>
      obtain ⟨c, v⟩ := q
      rw [stage_some h, List.map_cons, List.map_cons, stage_after L _]

/-! ## Elements with addresses

An address is set aside first, then the element with a placeholder for the address. -/

def PState.cached (v : Str) (σ : PState) : PState := { σ with refIndex := σ.refIndex + 1, refCache := imInsert (σ.refIndex + 1) v σ.refCache }

def PState.addressed (uid o a z : Str) (σ : PState) : PState := (σ.cached o).shelved uid (a ++ '"' :: (urlTok uid (σ.refIndex + 1) ++ z))

theorem Grow.cached (uid v : Str) (σ : PState) : Grow uid σ (σ.cached v) := by
  refine ⟨⟨rfl, by simp only [PState.cached]; omega, ?_, ?_, rfl⟩, rfl, rfl⟩
  · intro j hj
    refine ⟨?_, rfl⟩
    simp only [PState.cached]
    rw [alLookup_imInsert, if_neg (by omega)]
  · intro hi e he
    obtain ⟨j, h1, h2⟩ := hi e he
    exact ⟨j, by simp only [PState.cached]; omega, h2⟩

theorem Grow.addressed (uid o a z : Str) (σ : PState) : Grow uid σ (σ.addressed uid o a z) :=
  (Grow.cached uid o σ).trans (Grow.shelved uid _ _)

/-- The selected elements are set aside; `sel` gives the address and what is before and after it. -/
def stageU (sel : Slot → Option (Str × Str × Str)) (uid : Str) : PState → List (Slot × Str) → List (Slot × Str) × PState
  | σ, [] => ([], σ)
  | σ, (s, g) :: L =>
    match sel s with
    | some (o, a, z) => ((.key (σ.refIndex + 2) (a ++ '"' :: (o ++ z)), g) :: (stageU sel uid (σ.addressed uid o a z) L).1,
        (stageU sel uid (σ.addressed uid o a z) L).2)
    | none => ((s, g) :: (stageU sel uid σ L).1, (stageU sel uid σ L).2)

theorem stageU_some {sel : Slot → Option (Str × Str × Str)} {uid : Str} {σ : PState} {s : Slot} {g o a z : Str} {L : List (Slot × Str)}
    (h : sel s = some (o, a, z)) : stageU sel uid σ ((s, g) :: L) =
      ((.key (σ.refIndex + 2) (a ++ '"' :: (o ++ z)), g) :: (stageU sel uid (σ.addressed uid o a z) L).1,
        (stageU sel uid (σ.addressed uid o a z) L).2) := by
  rw [stageU, h]

theorem stageU_none {sel : Slot → Option (Str × Str × Str)} {uid : Str} {σ : PState} {s : Slot} {g : Str} {L : List (Slot × Str)}
    (h : sel s = none) : stageU sel uid σ ((s, g) :: L) = ((s, g) :: (stageU sel uid σ L).1, (stageU sel uid σ L).2) := by
  rw [stageU, h]

theorem stageU_grow {sel : Slot → Option (Str × Str × Str)} {uid : Str} : ∀ (L : List (Slot × Str)) (σ : PState),
    Grow uid σ (stageU sel uid σ L).2 ∧ (stageU sel uid σ L).2.aux = σ.aux ∧ (stageU sel uid σ L).2.refIndex =
      σ.refIndex + 2 * L.countP (fun p => (sel p.1).isSome)
  | [], σ => ⟨Grow.refl _ _, rfl, rfl⟩
  | (s, g) :: L, σ => by
    cases h : sel s with
    | none =>
      rw [stageU_none h]
      obtain ⟨h1, h2, h3⟩ := stageU_grow (sel := sel) (uid := uid) L σ
      exact ⟨h1, h2, by rw [h3]; simp [h]⟩
    | some q =>
      obtain ⟨o, a, z⟩ := q
      rw [stageU_some h]
      obtain ⟨h1, h2, h3⟩ := stageU_grow (sel := sel) (uid := uid) L (σ.addressed uid o a z)
      refine ⟨(Grow.addressed uid o a z σ).trans h1, h2, ?_⟩
      simp only
      rw [h3]
      simp [h, PState.addressed, PState.cached, PState.shelved]; omega

theorem addressed_stands {uid o a z : Str} {σ : PState} (ha : ':' ∉ a) (hz : ':' ∉ z) :
    Stands uid (σ.addressed uid o a z) (σ.refIndex + 2) (a ++ '"' :: (o ++ z)) := by
  refine .inr ⟨σ.refIndex + 1, o, a, z, by simp [PState.addressed, PState.cached, PState.shelved], ?_, ?_, rfl, ha, hz⟩
  · simp [PState.addressed, PState.cached, PState.shelved, alLookup_imInsert]
  · exact shelved_lookup uid _ (σ.cached o)

theorem stageU_keys {sel : Slot → Option (Str × Str × Str)} {uid : Str} :
    ∀ (L : List (Slot × Str)) (σ : PState), (∀ p ∈ L, ∀ o a z, sel p.1 = some (o, a, z) → ':' ∉ a ∧ ':' ∉ z) →
    KeysOk uid σ L → KeysOk uid (stageU sel uid σ L).2 (stageU sel uid σ L).1
  | [], σ, _, _ => by intro p hp; cases hp
  | (s, g) :: L, σ, hc, hk => by
    have hc' : ∀ p ∈ L, ∀ o a z, sel p.1 = some (o, a, z) → ':' ∉ a ∧ ':' ∉ z := fun p hp => hc p (by simp [hp])
    have hL : KeysOk uid σ L := fun p hp => hk p (by simp [hp])
    cases h : sel s with
    | none =>
      rw [stageU_none h]
      intro p hp n v e
      rcases List.mem_cons.1 hp with rfl | hp
      · have hg := (stageU_grow (sel := sel) (uid := uid) L σ).1
        obtain ⟨h1, h2⟩ := hk (s, g) (by simp) n v e
        exact ⟨Nat.le_trans h1 hg.index, h2.mono h1 hg.agrees hg.index⟩
      · exact stageU_keys L σ hc' hL p hp n v e
    | some q =>
      obtain ⟨o, a, z⟩ := q
      rw [stageU_some h]
      intro p hp n v e
      rcases List.mem_cons.1 hp with rfl | hp
      · injection e with e1 e2
        subst e1 e2
        have hg := (stageU_grow (sel := sel) (uid := uid) L (σ.addressed uid o a z)).1
        have h1 : σ.refIndex + 2 ≤ (σ.addressed uid o a z).refIndex := by simp [PState.addressed, PState.cached, PState.shelved]
        exact ⟨Nat.le_trans h1 hg.index, (addressed_stands (hc (s, g) (by simp) o a z h).1 (hc (s, g) (by simp) o a z h).2).mono h1 hg.agrees hg.index⟩
      · exact stageU_keys L _ hc' (hL.mono (Grow.addressed uid o a z σ)) p hp n v e

theorem stageU_mem {sel : Slot → Option (Str × Str × Str)} {uid : Str} : ∀ {L : List (Slot × Str)} {σ : PState} {p : Slot × Str},
    p ∈ (stageU sel uid σ L).1 → (p ∈ L ∧ sel p.1 = none) ∨
      ∃ q ∈ L, ∃ n o a z, sel q.1 = some (o, a, z) ∧ p = (.key n (a ++ '"' :: (o ++ z)), q.2)
  | [], _, _, h => by cases h
  | (s, g) :: L, σ, p, hp => by
    cases h : sel s with
    | none =>
      rw [stageU_none h] at hp
      rcases List.mem_cons.1 hp with rfl | hp
      · exact .inl ⟨by simp, h⟩
      · rcases stageU_mem hp with ⟨h1, h2⟩ | ⟨q, h1, h2⟩
        · exact .inl ⟨by simp [h1], h2⟩
        · exact .inr ⟨q, by simp [h1], h2⟩
    | some q =>
      obtain ⟨o, a, z⟩ := q
      rw [stageU_some h] at hp
      rcases List.mem_cons.1 hp with rfl | hp
      · exact .inr ⟨(s, g), by simp, _, o, a, z, h, rfl⟩
      · rcases stageU_mem hp with ⟨h1, h2⟩ | ⟨q, h1, h2⟩
        · exact .inl ⟨by simp [h1], h2⟩
        · exact .inr ⟨q, by simp [h1], h2⟩

theorem stageU_html {sel : Slot → Option (Str × Str × Str)} {uid : Str} (hs : ∀ s o a z, sel s = some (o, a, z) → a ++ '"' :: (o ++ z) = s.html) :
    ∀ (L : List (Slot × Str)) (σ : PState), (stageU sel uid σ L).1.map (fun p => (p.1.html, p.2)) = L.map (fun p => (p.1.html, p.2))
  | [], _ => rfl
  | (s, g) :: L, σ => by
    cases h : sel s with
    | none => rw [stageU_none h, List.map_cons, List.map_cons, stageU_html hs L σ]
    | some q =>
      obtain ⟨o, a, z⟩ := q
      rw [stageU_some h, List.map_cons, List.map_cons, stageU_html hs L _, hs s o a z h]
      rfl

theorem stageU_after {sel : Slot → Option (Str × Str × Str)} {uid : Str} :
    ∀ (L : List (Slot × Str)) (σ : PState), (stageU sel uid σ L).1.map (·.2) = L.map (·.2)
  | [], _ => rfl
  | (s, g) :: L, σ => by
    cases h : sel s with
    | none => rw [stageU_none h, List.map_cons, List.map_cons, stageU_after L σ]
    | some q =>
      obtain ⟨o, a, z⟩ := q
      rw [stageU_some h, List.map_cons, List.map_cons, stageU_after L _]

theorem stageU_count {sel : Slot → Option (Str × Str × Str)} {uid : Str} {q : Slot × Str → Bool} (h1 : ∀ n v a, q (.key n v, a) = false)
    (h2 : ∀ s a, (sel s).isSome = true → q (s, a) = false) : ∀ (L : List (Slot × Str)) (σ : PState),
    (stageU sel uid σ L).1.countP q = L.countP q
  | [], _ => rfl
  | (s, g) :: L, σ => by
    cases h : sel s with
    | none => rw [stageU_none h]; simp [List.countP_cons, stageU_count h1 h2 L σ]
    | some x =>
      obtain ⟨o, a, z⟩ := x
      rw [stageU_some h]
      simp [List.countP_cons, stageU_count h1 h2 L _, h1, h2 s g (by rw [h]; rfl)]

/-! ## How a stage is run -/

theorem Free.left {n a b : Str} (h : Free n (a ++ b)) : ∀ u v, a = u ++ v → v ≠ [] → ∀ r, ¬ n <+: v ++ (b ++ r) := by
  rintro u v rfl hv r ⟨x, hx⟩
  cases v with
  | nil => exact hv rfl
  | cons y v => exact h.at (u := u) (y := y) (v := v ++ b) (r := r) (by simp) x (by rw [hx]; simp)

theorem Free.right {n a b : Str} (h : Free n (a ++ b)) : Free n b := by
  rintro u v rfl hv
  exact h (a ++ u) v (by simp) hv

theorem sp_skips {U : Uni} {st en r b : Str} (hr : b = [] → ¬ st <+: r) : ∀ {w pre : Str}, Free st (w ++ b) →
    Skips U (spShape st en) pre w (b ++ r)
  | [], _, _ => .nil
  | y :: w, pre, h => by
    have h1 := Free.left h [] (y :: w) rfl (by simp) r
    have h2 : Free st (w ++ b) := Free.right (a := [y]) h
    refine .cons (sp_miss h1 ?_) (sp_skips hr h2)
    cases w with
    | nil =>
      cases b with
      | nil => exact hr rfl
      | cons x b => exact Free.left (a := x :: b) (b := []) (by simpa using h2) [] (x :: b) rfl (by simp) r
    | cons x w => exact Free.left h2 [] (x :: w) rfl (by simp) r

/-- An element and the text after it, in this stage. -/
structure StageOk (sel : Slot → Option (Str × Str)) (uid st : Str) (p : Slot × Str) : Prop where
  after : Free st p.2
  close : ∀ c ∈ p.2, c ∉ t!"])}"
  other : sel p.1 = none → Free st (p.1.str uid)
  this : ∀ c v, sel p.1 = some (c, v) → p.1.str uid = st ++ (c ++ st) ∧ ∀ x y r, c = x ++ y → y ≠ [] → ¬ st <+: y ++ (st ++ r)

theorem scan_stage {C : Ctx} {sel : Slot → Option (Str × Str)} {st : Str} {d : Char} {f : Mat → Prog Str} (hd : st.head? = some d)
    (hdw : isWs d = false) (hf : ∀ s c v, sel s = some (c, v) → ∀ (m : Mat) (σ : PState), (m.grp 1 = [] ∨ ∃ x, m.grp 1 = [x] ∧ isWs x = true) →
      m.grp 2 = c → m.grp 3 = [] → Runs C (f m) (m.grp 1 ++ shelfKey C.cfg.uid (σ.refIndex + 1)) σ (σ.shelved C.cfg.uid v)) :
    ∀ (L : List (Slot × Str)) (w pre : Str) (σ : PState), (∀ p ∈ L, StageOk sel C.cfg.uid st p) → Free st w →
    (L ≠ [] → (w = [] ∧ pre = []) ∨ ∃ u x, w = u ++ [x] ∧ isWs x = true) → (∀ p ∈ L.dropLast, ∃ u x, p.2 = u ++ [x] ∧ isWs x = true) →
    ScanP C (spShape st st) f pre (w ++ slotsText C.cfg.uid L) σ (w ++ slotsText C.cfg.uid (stage sel C.cfg.uid σ L).1)
      (stage sel C.cfg.uid σ L).2
  | [], w, pre, σ, _, hw, _, _ => by
    simp only [stage, slotsText, List.flatMap_nil]
    refine ScanP.of_skips (sp_skips (b := []) (r := []) (fun _ hp => ?_) (by simpa using hw)) .nil
    have := List.prefix_nil.1 hp
    rw [this] at hd; cases hd
  | (s, a) :: L, w, pre, σ, hL, hw, hp, hb => by
    have hok := hL (s, a) (by simp)
    have hL' : ∀ p ∈ L, StageOk sel C.cfg.uid st p := fun p hp => hL p (by simp [hp])
    have ha : L ≠ [] → ∃ u x, a = u ++ [x] ∧ isWs x = true := fun hne => hb (s, a) (by
      rw [List.dropLast_cons_of_ne_nil hne]; simp)
    have hb' : ∀ p ∈ L.dropLast, ∃ u x, p.2 = u ++ [x] ∧ isWs x = true := by
      intro p hp
      refine hb p ?_
      rw [List.dropLast_cons_of_ne_nil (by rintro rfl; cases hp)]
      exact List.mem_cons_of_mem _ hp
    cases h : sel s with
    | none =>
      rw [stage_none h, slotsText_cons, slotsText_cons]
      have := scan_stage hd hdw hf L (w ++ (s.str C.cfg.uid ++ a)) pre σ hL'
        (hw.append ((hok.other h).append hok.after))
        (fun hne => by
          obtain ⟨u, x, e, hx⟩ := ha hne
          exact .inr ⟨w ++ (s.str C.cfg.uid ++ u), x, by rw [e]; simp, hx⟩) hb'
      simpa using this
    | some q =>
      obtain ⟨c, v⟩ := q
      obtain ⟨h1, h2⟩ := hok.this c v h
      rw [stage_some h, slotsText_cons, slotsText_cons]
      simp only at h1 ⊢
      rw [h1]
      have hr : ∀ x, (a ++ slotsText C.cfg.uid L).head? = some x → x ∉ t!"])}" := by
        intro x hx
        cases a with
        | nil =>
          cases L with
          | nil => simp [slotsText] at hx
          | cons q L => obtain ⟨u, x, e, -⟩ := ha (by simp); simp at e
        | cons y a => simp at hx; exact hok.close x (by simp [hx])
      have hit : ∀ (pre w : Str), BeforeSp pre w →
          ScanP C (spShape st st) f pre (w ++ (st ++ (c ++ st) ++ (a ++ slotsText C.cfg.uid L))) σ
            (w ++ (shelfKey C.cfg.uid (σ.refIndex + 1) ++ (a ++ slotsText C.cfg.uid (stage sel C.cfg.uid (σ.shelved C.cfg.uid v) L).1)))
            (stage sel C.cfg.uid (σ.shelved C.cfg.uid v) L).2 := by
        intro pre w hbw
        obtain ⟨cp, g1, g2⟩ := sp_hit (U := C.U) (rest := a ++ slotsText C.cfg.uid L) hd hdw hbw (fun x y e hy => h2 x y _ e hy) hr
        have := ScanP.hit (C := C) (f := f) (o := w ++ shelfKey C.cfg.uid (σ.refIndex + 1)) (σ := σ) (σ1 := σ.shelved C.cfg.uid v) g1
          (by cases st with
            | nil => simp at hd
            | cons y st => simp) (by
            intro gap
            obtain ⟨k1, k2, k3⟩ := g2 gap (w ++ (st ++ (c ++ st)))
            have := hf s c v h ⟨gap, w ++ (st ++ (c ++ st)), cp⟩ σ (by
              rw [k1]
              rcases hbw with ⟨e, -⟩ | e
              · exact .inl e
              · exact .inr e) k2 k3
            rw [k1] at this
            exact this)
          (scan_stage hd hdw hf L a _ _ hL' hok.after (fun hne => .inr (ha hne)) hb')
        simpa using this
      rw [show Slot.str C.cfg.uid (Slot.key (σ.refIndex + 1) v) = shelfKey C.cfg.uid (σ.refIndex + 1) from rfl]
      rcases hp (by simp) with ⟨rfl, rfl⟩ | ⟨u, x, rfl, hx⟩
      · have := hit [] [] (.inl ⟨rfl, .inl rfl⟩)
        simpa using this
      · have := hit (u.reverse ++ pre) [x] (.inr ⟨x, rfl, hx⟩)
        have h3 := ScanP.of_skips (C := C) (f := f) (sp_skips (U := C.U) (en := st) (pre := pre) (b := [x])
          (r := st ++ (c ++ st) ++ (a ++ slotsText C.cfg.uid L)) (fun e => by cases e) hw) this
        simpa using h3

theorem spShape_nonnull {st en : Str} (h : st ≠ []) : (spShape st en).nonnull = true := by
  cases st with
  | nil => exact absurd rfl h
  | cons a st => simp [spShape, lits, Re.nonnull]

/-! ## Code and verbatim text -/

def selEq : Slot → Option (Str × Str)
  | .inl (.verbatim t) => some (t, t)
  | _ => none

def selAt : Slot → Option (Str × Str)
  | .inl (.code t) => some (t, t!"<code>" ++ encodeHtml t false false ++ t!"</code>")
  | _ => none

theorem options_ws {w : Str} (h : w = [] ∨ ∃ x, w = [x] ∧ isWs x = true) : specialOptions w [] = (w, []) := by
  unfold specialOptions
  rw [if_neg (by rintro ⟨-, h⟩; cases h)]

theorem runs_fTextile {C : Ctx} (m : Mat) (σ : PState) (h : m.grp 1 = [] ∨ ∃ x, m.grp 1 = [x] ∧ isWs x = true) (h3 : m.grp 3 = []) :
    Runs C (fTextile m) (m.grp 1 ++ shelfKey C.cfg.uid (σ.refIndex + 1)) σ (σ.shelved C.cfg.uid (m.grp 2)) := by
  unfold fTextile
  rw [h3, options_ws h]
  refine (Runs.shelve _ _ _).bind ?_
  rw [List.append_nil]
  exact Runs.pure _ _

theorem runs_fCode {C : Ctx} (m : Mat) (σ : PState) (h : m.grp 1 = [] ∨ ∃ x, m.grp 1 = [x] ∧ isWs x = true) (h3 : m.grp 3 = []) :
    Runs C (fCode m) (m.grp 1 ++ shelfKey C.cfg.uid (σ.refIndex + 1)) σ
      (σ.shelved C.cfg.uid (t!"<code>" ++ encodeHtml (m.grp 2) false false ++ t!"</code>")) := by
  unfold fCode
  rw [h3, options_ws h]
  refine (Runs.shelve _ _ _).bind ?_
  rw [List.append_nil]
  exact Runs.pure _ _

theorem runs_eq {C : Ctx} {L : List (Slot × Str)} {w : Str} {σ : PState} (hL : ∀ p ∈ L, StageOk selEq C.cfg.uid t!"==" p)
    (hw : Free t!"==" w) (hp : L ≠ [] → w = [] ∨ ∃ u x, w = u ++ [x] ∧ isWs x = true)
    (hb : ∀ p ∈ L.dropLast, ∃ u x, p.2 = u ++ [x] ∧ isWs x = true) :
    Runs C (replaceP C SP_EQ_RE fTextile (w ++ slotsText C.cfg.uid L)) (w ++ slotsText C.cfg.uid (stage selEq C.cfg.uid σ L).1) σ
      (stage selEq C.cfg.uid σ L).2 := by
  rw [SP_EQ_shape]
  refine ScanP.runs (spShape_nonnull (by simp)) (fun m => rfl) (scan_stage (d := '=') rfl (by decide) ?_ L w [] σ hL hw
    (fun hne => (hp hne).imp (fun h => ⟨h, rfl⟩) id) hb)
  intro s c v hs m σ h1 h2 h3
  have : v = c := by
    unfold selEq at hs
    split at hs
    · simp at hs; rw [← hs.1, ← hs.2]
    · cases hs
  rw [this, ← h2]
  exact runs_fTextile m σ h1 h3

theorem runs_at {C : Ctx} {L : List (Slot × Str)} {w : Str} {σ : PState} (hL : ∀ p ∈ L, StageOk selAt C.cfg.uid t!"@" p)
    (hw : Free t!"@" w) (hp : L ≠ [] → w = [] ∨ ∃ u x, w = u ++ [x] ∧ isWs x = true)
    (hb : ∀ p ∈ L.dropLast, ∃ u x, p.2 = u ++ [x] ∧ isWs x = true) :
    Runs C (replaceP C SP_AT_RE fCode (w ++ slotsText C.cfg.uid L)) (w ++ slotsText C.cfg.uid (stage selAt C.cfg.uid σ L).1) σ
      (stage selAt C.cfg.uid σ L).2 := by
  rw [SP_AT_shape]
  refine ScanP.runs (spShape_nonnull (by simp)) (fun m => rfl) (scan_stage (d := '@') rfl (by decide) ?_ L w [] σ hL hw
    (fun hne => (hp hne).imp (fun h => ⟨h, rfl⟩) id) hb)
  intro s c v hs m σ h1 h2 h3
  have : v = t!"<code>" ++ encodeHtml c false false ++ t!"</code>" := by
    unfold selAt at hs
    split at hs
    · simp at hs; rw [← hs.1, ← hs.2]; simp
    · cases hs
  rw [this, ← h2]
  exact runs_fCode m σ h1 h3

end Rustextile
