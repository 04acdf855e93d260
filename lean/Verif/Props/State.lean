import Verif.Effects
import Verif.StrLemmas
import Verif.Demo
import Verif.Props.Html

/-!
# Placeholders, generated numbers, depth of inline markup: C32, C33, C35
-/

namespace Rustextile

open Prog

/-! ## C33 -/

/-- The shelf entry made by an event. -/
def Event.shelfEntry : Event → Option (Str × Str)
  | .stored _ k v => some (k, v)
  | _ => none

/-- The entry of `ref_cache` made by an event. -/
def Event.refEntry : Event → Option (Nat × Str)
  | .cached _ _ n v => some (n, v)
  | _ => none

theorem shelfKey_inj {uid : Str} {m n : Nat} (h : shelfKey uid m = shelfKey uid n) : m = n := by
  unfold shelfKey at h
  simp only [List.append_assoc, List.append_cancel_left_eq, List.append_cancel_right_eq] at h
  exact natStr_inj h

/-- The entries known at a moment have numbers already given out. -/
structure StoreOk (uid : Str) (st : PState) : Prop where
  shelf : ∀ p ∈ st.shelf, ∃ n, n ≤ st.refIndex ∧ p.1 = shelfKey uid n
  cache : ∀ p ∈ st.refCache, p.1 ≤ st.refIndex

theorem StoreOk.init (uid : Str) : StoreOk uid {} := ⟨by simp, by simp⟩

theorem alLookup_none_of {α β} [DecidableEq α] {k : α} : ∀ {l : List (α × β)}, (∀ p ∈ l, p.1 ≠ k) →
    alLookup k l = none
  | [], _ => rfl
  | (a, b) :: l, h => by
    rw [alLookup, if_neg (h (a, b) (by simp))]
    exact alLookup_none_of (fun p hp => h p (by simp [hp]))

theorem shelve_append {uid v : Str} {w : World} (h : StoreOk uid w.st) :
    (w.shelve uid v).2.st.shelf = w.st.shelf ++ [((w.shelve uid v).1, v)] ∧
    StoreOk uid (w.shelve uid v).2.st := by
  have e : (w.shelve uid v).2.st.shelf = w.st.shelf ++ [((w.shelve uid v).1, v)] := by
    simp only [World.shelve]
    refine imInsert_fresh ?_
    intro p hp hk
    obtain ⟨n, hn, e⟩ := h.shelf p hp
    rw [e] at hk
    have := shelfKey_inj hk
    omega
  refine ⟨e, ?_, ?_⟩
  · rw [e]
    intro p hp
    rw [List.mem_append] at hp
    rcases hp with hp | hp
    · obtain ⟨n, hn, hk⟩ := h.shelf p hp
      exact ⟨n, by simp only [World.shelve]; omega, hk⟩
    · simp at hp
      refine ⟨w.st.refIndex + 1, by simp [World.shelve], by rw [hp]; rfl⟩
  · intro p hp
    have := h.cache p hp
    simp only [World.shelve]; omega

theorem cacheRef_append {uid v : Str} {w : World} (h : StoreOk uid w.st) :
    (w.cacheRef v).2.st.refCache = w.st.refCache ++ [((w.cacheRef v).1, v)] ∧
    StoreOk uid (w.cacheRef v).2.st := by
  have e : (w.cacheRef v).2.st.refCache = w.st.refCache ++ [((w.cacheRef v).1, v)] := by
    simp only [World.cacheRef]
    refine imInsert_fresh ?_
    intro p hp hk
    have := h.cache p hp
    omega
  refine ⟨e, ?_, ?_⟩
  · intro p hp
    obtain ⟨n, hn, hk⟩ := h.shelf p hp
    exact ⟨n, by simp only [World.cacheRef]; omega, hk⟩
  · rw [e]
    intro p hp
    rw [List.mem_append] at hp
    rcases hp with hp | hp
    · have := h.cache p hp
      simp only [World.cacheRef]; omega
    · simp at hp; rw [hp]; simp [World.cacheRef]

theorem getPat_st (uid : Str) (s : Site) (w : World) : (w.getPat uid s).2.st = w.st := by
  unfold World.getPat; split <;> rfl

/-- After a run the shelf consists of the old entries followed by the ones stored
during the run, in order; the same for `ref_cache`. -/
theorem run_store (C : Ctx) {α : Type} (p : Prog α) : ∀ (w w' : World) (a : α), StoreOk C.cfg.uid w.st →
    run C p w = .ok (a, w') →
    w'.st.shelf = w.st.shelf ++ (trace C p w).filterMap Event.shelfEntry ∧
    w'.st.refCache = w.st.refCache ++ (trace C p w).filterMap Event.refEntry ∧
    StoreOk C.cfg.uid w'.st := by
  induction p with
  | ret a => intro w w' b h e; simp [run] at e; rw [← e.2]; simp [trace, h]
  | fail e => intro w w' b h e; simp [run] at e
  | shelve kd v k ih =>
    intro w w' b h e
    obtain ⟨h1, h2⟩ := shelve_append (v := v) h
    obtain ⟨h3, h4, h5⟩ := ih _ _ _ _ h2 e
    refine ⟨?_, ?_, h5⟩
    · rw [h3, h1]; simp [trace, Event.shelfEntry]
    · exact h4
  | cacheRef kd v k ih =>
    intro w w' b h e
    obtain ⟨h1, h2⟩ := cacheRef_append (v := v) h
    obtain ⟨h3, h4, h5⟩ := ih _ _ _ _ h2 e
    refine ⟨?_, ?_, h5⟩
    · exact h3
    · rw [h4, h1]; simp [trace, Event.refEntry]
  | incLink k ih =>
    intro w w' b h e
    obtain ⟨h3, h4, h5⟩ := ih _ _ _ _ (by exact ⟨h.1, h.2⟩) e
    exact ⟨h3, h4, h5⟩
  | setFootnote l i k ih => intro w w' b h e; exact ih _ _ _ (by exact ⟨h.1, h.2⟩) e
  | setAux g k ih => intro w w' b h e; exact ih _ _ _ (by exact ⟨h.1, h.2⟩) e
  | spanEnter k ih => intro w w' b h e; exact ih _ _ _ _ (by exact ⟨h.1, h.2⟩) e
  | spanLeave k ih => intro w w' b h e; exact ih _ _ _ (by exact ⟨h.1, h.2⟩) e
  | getSt k ih => intro w w' b h e; exact ih _ _ _ _ h e
  | getPat s k ih =>
    intro w w' b h e
    have := ih _ _ _ _ (by rw [getPat_st]; exact h) e
    rw [getPat_st] at this
    exact this
  | probe u k ih =>
    intro w w' b h e
    obtain ⟨h3, h4, h5⟩ := ih _ _ _ _ h e
    exact ⟨h3, h4, h5⟩

/-- The numbers of placeholders used by events. -/
def Event.refNumber (uid : Str) (e : Event) (n : Nat) : Prop :=
  match e with
  | .stored _ k _ => k = shelfKey uid n
  | .cached _ _ m _ => m = n
  | _ => False

/-- The placeholders made during a run have increasing numbers. -/
theorem trace_refNumbers (C : Ctx) {α : Type} (p : Prog α) : ∀ (w : World),
    (∀ e ∈ trace C p w, ∀ n, e.refNumber C.cfg.uid n → w.st.refIndex < n) ∧
    (trace C p w).Pairwise (fun e e' => ∀ m n, e.refNumber C.cfg.uid m → e'.refNumber C.cfg.uid n → m < n) := by
  induction p with
  | ret a => intro w; simp [trace]
  | fail e => intro w; simp [trace]
  | shelve kd v k ih =>
    intro w
    obtain ⟨h1, h2⟩ := ih (w.shelve C.cfg.uid v).1 (w.shelve C.cfg.uid v).2
    have hi : (w.shelve C.cfg.uid v).2.st.refIndex = w.st.refIndex + 1 := rfl
    simp only [trace, List.mem_cons, List.pairwise_cons]
    refine ⟨?_, ?_, h2⟩
    · rintro e (rfl | he) n hn
      · have : w.st.refIndex + 1 = n := shelfKey_inj hn
        omega
      · have := h1 e he n hn; omega
    · intro e he m n hm hn
      have := h1 e he n hn
      have : w.st.refIndex + 1 = m := shelfKey_inj hm
      omega
  | cacheRef kd v k ih =>
    intro w
    obtain ⟨h1, h2⟩ := ih (w.cacheRef v).1 (w.cacheRef v).2
    have hi : (w.cacheRef v).2.st.refIndex = w.st.refIndex + 1 := rfl
    simp only [trace, List.mem_cons, List.pairwise_cons]
    refine ⟨?_, ?_, h2⟩
    · rintro e (rfl | he) n hn
      · have : w.st.refIndex + 1 = n := hn
        omega
      · have := h1 e he n hn; omega
    · intro e he m n hm hn
      have := h1 e he n hn
      have : w.st.refIndex + 1 = m := hm
      omega
  | incLink k ih =>
    intro w
    obtain ⟨h1, h2⟩ := ih w.incLink.1 w.incLink.2
    simp only [trace, List.mem_cons, List.pairwise_cons]
    refine ⟨?_, ?_, h2⟩
    · rintro e (rfl | he) n hn
      · exact hn.elim
      · exact h1 e he n hn
    · intro e he m n hm hn; exact hm.elim
  | setFootnote l i k ih => intro w; exact ih _
  | setAux g k ih => intro w; exact ih _
  | spanEnter k ih => intro w; exact ih _ _
  | spanLeave k ih => intro w; exact ih _
  | getSt k ih => intro w; exact ih _ _
  | getPat s k ih => intro w; have := ih (w.getPat C.cfg.uid s).1 (w.getPat C.cfg.uid s).2; rw [getPat_st] at this; exact this
  | probe u k ih =>
    intro w
    obtain ⟨h1, h2⟩ := ih (C.E.imageSize u) w
    simp only [trace, List.mem_cons, List.pairwise_cons]
    refine ⟨?_, ?_, h2⟩
    · rintro e (rfl | he) n hn
      · exact hn.elim
      · exact h1 e he n hn
    · intro e he m n hm hn; exact hm.elim

/-- Every key handed out is of the expected form. -/
theorem trace_keys (C : Ctx) {α : Type} (p : Prog α) : ∀ (w : World) (kd : ShelfKind) (k v : Str),
    .stored kd k v ∈ trace C p w → ∃ n, k = shelfKey C.cfg.uid n := by
  induction p with
  | ret a => intro w kd k v h; simp [trace] at h
  | fail e => intro w kd k v h; simp [trace] at h
  | shelve kd v k ih =>
    intro w kd' k' v' h
    simp only [trace, List.mem_cons] at h
    rcases h with h | h
    · injection h with _ h2 _; exact ⟨w.st.refIndex + 1, h2⟩
    · exact ih _ _ _ _ _ h
  | cacheRef kd v k ih =>
    intro w kd' k' v' h
    simp only [trace, List.mem_cons, reduceCtorEq, false_or] at h
    exact ih _ _ _ _ _ h
  | incLink k ih =>
    intro w kd' k' v' h
    simp only [trace, List.mem_cons, reduceCtorEq, false_or] at h
    exact ih _ _ _ _ _ h
  | setFootnote l i k ih => intro w kd' k' v' h; exact ih _ _ _ _ h
  | setAux g k ih => intro w kd' k' v' h; exact ih _ _ _ _ h
  | spanEnter k ih => intro w kd' k' v' h; exact ih _ _ _ _ _ h
  | spanLeave k ih => intro w kd' k' v' h; exact ih _ _ _ _ h
  | getSt k ih => intro w kd' k' v' h; exact ih _ _ _ _ _ h
  | getPat s k ih => intro w kd' k' v' h; exact ih _ _ _ _ _ h
  | probe u k ih =>
    intro w kd' k' v' h
    simp only [trace, List.mem_cons, reduceCtorEq, false_or] at h
    exact ih _ _ _ _ _ h

theorem alLookup_of_nodup {α β} [DecidableEq α] {k : α} {v : β} : ∀ {l : List (α × β)},
    (l.map (·.1)).Nodup → (k, v) ∈ l → alLookup k l = some v
  | (a, b) :: l, hn, h => by
    simp only [List.map_cons, List.nodup_cons] at hn
    rw [alLookup]
    simp only [List.mem_cons, Prod.mk.injEq] at h
    rcases h with ⟨rfl, rfl⟩ | h
    · simp
    · rw [if_neg (by rintro rfl; exact hn.1 (List.mem_map.2 ⟨_, h, rfl⟩))]
      exact alLookup_of_nodup hn.2 h

/-- The keys of the texts set aside during a run are pairwise different; so are the
numbers of the entries of `ref_cache`. -/
theorem trace_nodup (C : Ctx) {α : Type} (p : Prog α) (w : World) :
    (((trace C p w).filterMap Event.shelfEntry).map (·.1)).Nodup ∧
    (((trace C p w).filterMap Event.refEntry).map (·.1)).Nodup := by
  have h := (trace_refNumbers C p w).2
  have hk := trace_keys C p w
  constructor
  · rw [List.Nodup, List.pairwise_map, List.pairwise_filterMap]
    refine (List.Pairwise.and_mem.1 h).imp ?_
    intro e e' ⟨he, he', hlt⟩ b hb b' hb' heq
    cases e with
    | stored kd k v =>
      cases e' with
      | stored kd' k' v' =>
        simp only [Event.shelfEntry, Option.some.injEq] at hb hb'
        subst hb; subst hb'
        obtain ⟨n, hn⟩ := hk _ _ _ he
        have hn' : k' = shelfKey C.cfg.uid n := by simp only at heq; rw [← heq, hn]
        have := hlt n n hn hn'
        omega
      | _ => simp [Event.shelfEntry] at hb'
    | _ => simp [Event.shelfEntry] at hb
  · rw [List.Nodup, List.pairwise_map, List.pairwise_filterMap]
    refine h.imp ?_
    intro e e' hlt b hb b' hb' heq
    cases e with
    | cached kd d n v =>
      cases e' with
      | cached kd' d' n' v' =>
        simp only [Event.refEntry, Option.some.injEq] at hb hb'
        subst hb; subst hb'
        have := hlt n n' rfl rfl
        simp only at heq
        omega
      | _ => simp [Event.refEntry] at hb'
    | _ => simp [Event.refEntry] at hb

/-- **C33.** During one call of `parse`, every text set aside gets a key used for
nothing else, and every entry of the reference cache a number used for nothing
else.  When the call succeeds, all of them are still there unchanged at the end
(after which nothing is stored any more): looking up the key gives the text. -/
theorem C33_placeholders (C : Ctx) (cache : Cache) (text : Str) :
    let es := trace C (parseP C text) { cache := cache }
    ((es.filterMap Event.shelfEntry).map (·.1)).Nodup ∧
    ((es.filterMap Event.refEntry).map (·.1)).Nodup ∧
    ∀ out w, run C (parseP C text) { cache := cache } = .ok (out, w) →
      w.st.shelf = es.filterMap Event.shelfEntry ∧
      w.st.refCache = es.filterMap Event.refEntry ∧
      (∀ kd k v, .stored kd k v ∈ es → alLookup k w.st.shelf = some v) ∧
      (∀ kd d n v, .cached kd d n v ∈ es → alLookup n w.st.refCache = some v) := by
  obtain ⟨h1, h2⟩ := trace_nodup C (parseP C text) { cache := cache }
  refine ⟨h1, h2, ?_⟩
  intro out w h
  obtain ⟨h3, h4, _⟩ := run_store C _ _ _ _ (StoreOk.init _) h
  simp only [List.nil_append] at h3 h4
  refine ⟨h3, h4, ?_, ?_⟩
  · intro kd k v hm
    rw [h3]
    exact alLookup_of_nodup h1 (List.mem_filterMap.2 ⟨_, hm, rfl⟩)
  · intro kd d n v hm
    rw [h4]
    exact alLookup_of_nodup h2 (List.mem_filterMap.2 ⟨_, hm, rfl⟩)

/-- The entries of a concrete run: an inline code, a link title, a link, two levels
of inline markup. -/
example : (trace ⟨demoEnv, built t!"abc" [], 100⟩
    (parseP ⟨demoEnv, built t!"abc" [], 100⟩ t!"@x@ *a _b_* \"t(u)\":v") {}).filterMap Event.shelfEntry =
      [(t!"textileRef:abc:1:shelve", t!"<code>x</code>"),
       (t!"textileRef:abc:3:shelve", t!"u"),
       (t!"textileRef:abc:4:shelve",
        t!"<a href=\"textileRef:abc:2:url\" title=\"textileRef:abc:3:shelve\">t</a>")] := by
  decide +kernel

theorem shelfKey_length (uid : Str) (n : Nat) : (shelfKey uid n).length = uid.length + (natStr n).length + 7 := by
  simp [shelfKey]; omega

/-- **C33**, second part: no placeholder is part of another one, so replacing one of
them cannot damage another one (`hu` holds for every token `set_uid` makes). -/
theorem C33_no_overlap (uid : Str) (hu : uid.getLast? = some ':') (m n : Nat) (a b : Str)
    (h : shelfKey uid m = a ++ shelfKey uid n ++ b) : m = n := by
  have hlen := congrArg List.length h
  simp only [List.length_append, shelfKey_length] at hlen
  cases a with
  | nil =>
    unfold shelfKey at h
    simp only [List.nil_append, List.append_assoc, List.append_cancel_left_eq] at h
    -- digits up to the first colon
    have e1 : ∀ (k : Nat) (r : Str), ((natStr k) ++ ':' :: r).takeWhile isDigitC = natStr k :=
      fun k r => takeWhile_all (natStr_digits k) (by decide)
    have h' := congrArg (List.takeWhile isDigitC) h
    have s1 : (natStr m ++ t!":shelve") = natStr m ++ ':' :: t!"shelve" := rfl
    have s2 : (natStr n ++ (t!":shelve" ++ b)) = natStr n ++ ':' :: (t!"shelve" ++ b) := rfl
    rw [s1, s2, e1, e1] at h'
    exact natStr_inj h'
  | cons c a =>
    exfalso
    obtain ⟨u, rfl⟩ : ∃ u, uid = u ++ [':'] := by
      rw [List.getLast?_eq_some_iff] at hu; exact hu
    -- the last character of the inner token falls on a digit of the outer number
    simp only [List.length_cons, List.length_append, List.length_nil] at hlen
    have hl : (shelfKey (u ++ [':']) m)[u.length + 1 + a.length]? = (natStr m)[a.length]? := by
      rw [shelfKey, List.append_assoc, List.getElem?_append_right (by simp),
        List.getElem?_append_left (by simp; omega)]
      simp
    have hr : (c :: a ++ shelfKey (u ++ [':']) n ++ b)[u.length + 1 + a.length]? = some ':' := by
      rw [shelfKey, List.append_assoc, List.getElem?_append_right (by simp; omega)]
      have e : u.length + 1 + a.length - (c :: a).length = u.length := by simp; omega
      rw [e]; simp
    have hg : (natStr m)[a.length]? = some ':' := by rw [← hl, h, hr]
    have hm := List.mem_of_getElem? hg
    have := natStr_digits m _ hm
    revert this; decide

/-- Every token made by `set_uid`, hence every token of a `Textile` value, ends with a
colon. -/
theorem built_uid (base : Str) (ss : List Setter) :
    ∃ b, (built base ss).uid = t!"textileRef:" ++ b ++ t!":" ∧ (built base ss).linkPrefix = b ++ t!"-" ∧
      (built base ss).maxSpanDepth = 5 := by
  unfold built
  have gen : ∀ (ss : List Setter) (c : Cfg),
      (∃ b, c.uid = t!"textileRef:" ++ b ++ t!":" ∧ c.linkPrefix = b ++ t!"-" ∧ c.maxSpanDepth = 5) →
      ∃ b, (ss.foldl (fun c s => s.apply c) c).uid = t!"textileRef:" ++ b ++ t!":" ∧
        (ss.foldl (fun c s => s.apply c) c).linkPrefix = b ++ t!"-" ∧
        (ss.foldl (fun c s => s.apply c) c).maxSpanDepth = 5 := by
    intro ss
    induction ss with
    | nil => exact fun c h => h
    | cons s ss ih =>
      intro c h
      refine ih _ ?_
      cases s <;> first | exact h | exact ⟨_, rfl, rfl, by obtain ⟨_, _, _, h⟩ := h; exact h⟩
  exact gen ss _ ⟨base, rfl, rfl, rfl⟩

/-! ## C32 -/

/-- The number allocated by an event. -/
def Event.linkNumber : Event → Option Nat
  | .number n => some n
  | _ => none

theorem trace_numbers (C : Ctx) {α : Type} (p : Prog α) : ∀ (w : World),
    (∀ n ∈ (trace C p w).filterMap Event.linkNumber, w.st.linkIndex < n) ∧
    ((trace C p w).filterMap Event.linkNumber).Pairwise (· < ·) := by
  induction p with
  | ret a => intro w; simp [trace]
  | fail e => intro w; simp [trace]
  | shelve kd v k ih => intro w; exact ih _ (w.shelve C.cfg.uid v).2
  | cacheRef kd v k ih => intro w; exact ih _ (w.cacheRef v).2
  | incLink k ih =>
    intro w
    obtain ⟨h1, h2⟩ := ih w.incLink.1 w.incLink.2
    have e : (trace C (incLink k) w).filterMap Event.linkNumber =
      (w.st.linkIndex + 1) :: (trace C (k w.incLink.1) w.incLink.2).filterMap Event.linkNumber := rfl
    have hi : w.incLink.2.st.linkIndex = w.st.linkIndex + 1 := rfl
    rw [e]
    simp only [List.mem_cons, List.pairwise_cons]
    refine ⟨?_, ?_, h2⟩
    · rintro n (rfl | hn)
      · omega
      · have := h1 n hn; omega
    · intro n hn; have := h1 n hn; omega
  | setFootnote l i k ih => intro w; exact ih _
  | setAux g k ih => intro w; exact ih _
  | spanEnter k ih => intro w; exact ih _ _
  | spanLeave k ih => intro w; exact ih _
  | getSt k ih => intro w; exact ih _ _
  | getPat s k ih =>
    intro w; have := ih (w.getPat C.cfg.uid s).1 (w.getPat C.cfg.uid s).2; rw [getPat_st] at this; exact this
  | probe u k ih => intro w; exact ih _ w

/-- **C32.** Every number allocated for footnotes, notes and note references during a
call of `parse` is larger than all numbers allocated before. -/
theorem C32_numbers (C : Ctx) (cache : Cache) (text : Str) :
    ((trace C (parseP C text) { cache := cache }).filterMap Event.linkNumber).Pairwise (· < ·) :=
  (trace_numbers C _ _).2

/-- The generated ids of a note: its own one and those of its references. -/
def NoteInfo.ids (n : NoteInfo) : List Str := (if n.id = [] then [] else [n.id]) ++ n.refids

def noteIds (l : List (Str × NoteInfo)) : List Str := l.flatMap (fun p => p.2.ids)

/-- All generated ids that a state knows of. -/
def PState.ids (st : PState) : List Str :=
  st.footnotes.map (·.2) ++ noteIds st.aux.notes ++ noteIds st.aux.unrefNotes

/-- Invariant: ids are made from numbers already allocated, and differ. -/
structure IdsOk (pref : Str) (st : PState) : Prop where
  form : ∀ x ∈ st.ids, ∃ n, n ≤ st.linkIndex ∧ x = pref ++ natStr n
  nodup : ∀ x, st.ids.count x ≤ 1
  sorted : Spec.SortedNames st.aux.notes

theorem count_noteIds_insert (x : Str) (k : Str) (v : NoteInfo) : ∀ {l : List (Str × NoteInfo)},
    Spec.SortedNames l →
    (noteIds (btInsert k v l)).count x + (match alLookup k l with | some n => n.ids.count x | none => 0) =
      v.ids.count x + (noteIds l).count x
  | [], _ => by simp [btInsert, noteIds, alLookup]
  | (a, b) :: l, h => by
    have ih := count_noteIds_insert x k v (sorted_tail h)
    rw [btInsert, alLookup]
    simp only [noteIds, List.flatMap_cons, List.count_append] at ih ⊢
    by_cases hk : a = k
    · simp only [hk, if_true, List.flatMap_cons, List.count_append]; omega
    · simp only [hk, if_false]
      by_cases hl : strLt k a = true
      · rw [lookup_before h (.inr (strLt_iff.1 hl))]
        simp only [hl, if_true, List.flatMap_cons, List.count_append]; omega
      · simp only [hl]
        simp only [Bool.false_eq_true, if_false, List.flatMap_cons, List.count_append]; omega

theorem count_map_imInsert (x k v : Str) : ∀ (l : List (Str × Str)), alLookup k l = none →
    ((imInsert k v l).map (·.2)).count x = (l.map (·.2)).count x + (if v = x then 1 else 0)
  | [], _ => by simp [imInsert, List.count_cons]
  | (a, b) :: l, h => by
    rw [alLookup] at h
    split at h
    · simp at h
    · rename_i hk
      have ih := count_map_imInsert x k v l h
      rw [imInsert, if_neg hk]
      simp only [List.map_cons, List.count_cons, ih]; omega

theorem pref_natStr_inj {p : Str} {m n : Nat} (h : p ++ natStr m = p ++ natStr n) : m = n :=
  natStr_inj (List.append_cancel_left h)

/-- A state whose ids are among the old ones and fresh ones. -/
theorem IdsOk.extend {pref : Str} {st st' : PState} (h : IdsOk pref st) (fresh : List Nat)
    (hf : ∀ n ∈ fresh, st.linkIndex < n ∧ n ≤ st'.linkIndex) (hl : st.linkIndex ≤ st'.linkIndex)
    (hn : fresh.Nodup)
    (hc : ∀ x, st'.ids.count x ≤ st.ids.count x + (fresh.map (fun n => pref ++ natStr n)).count x)
    (hs : Spec.SortedNames st'.aux.notes) : IdsOk pref st' := by
  refine ⟨?_, ?_, hs⟩
  · intro x hx
    have h1 := hc x
    have h2 := List.count_pos_iff.2 hx
    by_cases h3 : 0 < st.ids.count x
    · obtain ⟨n, hn, e⟩ := h.form x (List.count_pos_iff.1 h3)
      exact ⟨n, by omega, e⟩
    · have h4 : 0 < (fresh.map (fun n => pref ++ natStr n)).count x := by omega
      obtain ⟨n, hn, e⟩ := List.mem_map.1 (List.count_pos_iff.1 h4)
      exact ⟨n, (hf n hn).2, e.symm⟩
  · intro x
    have h1 := hc x
    have h2 := h.nodup x
    have h5 : (fresh.map (fun n => pref ++ natStr n)).Nodup := by
      rw [List.Nodup, List.pairwise_map]
      exact hn.imp (fun hne e => hne (pref_natStr_inj e))
    have h6 := List.nodup_iff_count.1 h5 x
    by_cases h3 : 0 < (fresh.map (fun n => pref ++ natStr n)).count x
    · obtain ⟨n, hn, e⟩ := List.mem_map.1 (List.count_pos_iff.1 h3)
      have : st.ids.count x = 0 := by
        rw [List.count_eq_zero]
        intro hx
        obtain ⟨m, hm, e'⟩ := h.form x hx
        have := pref_natStr_inj (e.trans e')
        have := (hf n hn).1
        omega
      omega
    · omega

/-- `p` keeps the invariant. -/
def KeepsIds (C : Ctx) {α : Type} (p : Prog α) : Prop :=
  ∀ w a w', IdsOk C.cfg.linkPrefix w.st → run C p w = .ok (a, w') → IdsOk C.cfg.linkPrefix w'.st

theorem keepsIds_bind {C : Ctx} {α β : Type} {p : Prog α} {f : α → Prog β} (hp : KeepsIds C p)
    (hf : ∀ a, KeepsIds C (f a)) : KeepsIds C (p >>= f) := by
  intro w b w' h e
  obtain ⟨a, w1, e1, e2⟩ := run_bind_inv e
  exact hf a _ _ _ (hp _ _ _ h e1) e2

theorem keepsIds_same {C : Ctx} {α : Type} {p : Prog α}
    (h : ∀ w a w', run C p w = .ok (a, w') → w'.st.footnotes = w.st.footnotes ∧
      w'.st.aux.notes = w.st.aux.notes ∧ w'.st.aux.unrefNotes = w.st.aux.unrefNotes ∧
      w.st.linkIndex ≤ w'.st.linkIndex) : KeepsIds C p := by
  intro w a w' hi e
  obtain ⟨h1, h2, h3, h4⟩ := h w a w' e
  refine hi.extend [] (by simp) h4 (by simp) ?_ (by rw [h2]; exact hi.sorted)
  intro x
  rw [PState.ids, h1, h2, h3]
  exact Nat.le_add_right _ _

theorem keepsIds_shelve (C : Ctx) (k : ShelfKind) (v : Str) : KeepsIds C (shelveP v k) :=
  keepsIds_same (by intro w a w' e; simp [shelveP, run] at e; rw [← e.2]; simp [World.shelve])

theorem keepsIds_plain (C : Ctx) : Plain C (KeepsIds C) where
  ret a := by
    intro w b w' h e; simp [run] at e; rw [← e.2]; exact h
  fail e := by intro w b w' h e; simp [run] at e
  bind := keepsIds_bind
  shelve v := keepsIds_shelve C _ v
  cacheRef k v := keepsIds_same (by
    intro w a w' e; simp [cacheRefP, run] at e; rw [← e.2]; simp [World.cacheRef])
  getSt := keepsIds_same (by intro w a w' e; simp [getStP, run] at e; rw [← e.2]; simp)
  probe _ _ u := keepsIds_same (by intro w a w' e; simp [probeP, run] at e; rw [← e.2]; simp)

/-- Allocating a number, followed by something. -/
theorem run_incLink {C : Ctx} {α : Type} (f : Nat → Prog α) (w : World) :
    run C (incLinkP >>= f) w = run C (f (w.st.linkIndex + 1)) w.incLink.2 := rfl
theorem run_setAux {C : Ctx} {α : Type} (g : Aux → Aux) (f : Unit → Prog α) (w : World) :
    run C (setAuxP g >>= f) w = run C (f ()) (w.setAux g) := rfl
theorem run_setFootnote {C : Ctx} {α : Type} (l i : Str) (f : Unit → Prog α) (w : World) :
    run C (setFootnoteP l i >>= f) w = run C (f ()) (w.setFootnote l i) := rfl
theorem run_getSt {C : Ctx} {α : Type} (f : PState → Prog α) (w : World) :
    run C (getStP >>= f) w = run C (f w.st) w := rfl

theorem keepsIds_incLink (C : Ctx) : KeepsIds C incLinkP := keepsIds_same (by
  intro w a w' e; simp [incLinkP, run] at e; rw [← e.2]; simp [World.incLink])

theorem keepsIds_footnote (C : Ctx) (m : Mat) : KeepsIds C (fFootnote C m) := by
  unfold fFootnote
  intro w a w' hi e
  simp only [run_getSt] at e
  cases hl : alLookup (m.grp 1) w.st.footnotes with
  | some i =>
    simp only [hl, pure_bind, run_pure, Except.ok.injEq, Prod.mk.injEq] at e
    rw [← e.2]; exact hi
  | none =>
    simp only [hl, LawfulMonad.bind_assoc, run_incLink, run_setFootnote, run_pure, pure_bind, Except.ok.injEq, Prod.mk.injEq] at e
    rw [← e.2]
    refine hi.extend [w.st.linkIndex + 1] (by simp [World.setFootnote, World.incLink])
      (by simp [World.setFootnote, World.incLink]) (by simp) ?_ hi.sorted
    intro x
    simp only [PState.ids, World.setFootnote, World.incLink, List.count_append]
    rw [count_map_imInsert _ _ _ _ hl]
    simp only [List.map_cons, List.map_nil, List.count_cons, List.count_nil, beq_iff_eq]
    omega

theorem count_ids_notes {st : PState} {x : Str} :
    st.ids.count x = (st.footnotes.map (·.2)).count x + (noteIds st.aux.notes).count x +
      (noteIds st.aux.unrefNotes).count x := by
  simp only [PState.ids, List.count_append]

theorem keepsIds_noteSeq (C : Ctx) (label : Str) : KeepsIds C (noteSeq label) := by
  unfold noteSeq
  intro w a w' hi e
  simp only [run_getSt] at e
  split at e
  · simp only [run_pure, Except.ok.injEq, Prod.mk.injEq] at e
    rw [← e.2]; exact hi
  · simp only [run_setAux, run_pure, Except.ok.injEq, Prod.mk.injEq] at e
    rw [← e.2]
    refine hi.extend [] (by simp) (Nat.le_refl _) (by simp) ?_ (btInsert_sorted _ _ hi.sorted)
    intro x
    have := count_noteIds_insert x label ⟨[], none, none, none, some (natStr w.st.aux.noteIndex), []⟩ hi.sorted
    simp only [count_ids_notes, World.setAux]
    simp only [NoteInfo.ids, if_true, List.append_nil, List.count_nil] at this
    omega

/-- The end of `fNoteRef`, after the sequence number is known. -/
theorem keepsIds_addRef (C : Ctx) (label : Str) (k : Str → Str → Str) : KeepsIds C (do
    let n ← incLinkP
    let st ← getStP
    let isEmptyId := match alLookup label st.aux.notes with
      | some n => n.id.isEmpty
      | none => true
    let newId ← (if isEmptyId then do
        let k ← incLinkP
        pure (C.cfg.linkPrefix ++ natStr k)
      else pure [] : Prog Str)
    setAuxP (addRefId label (C.cfg.linkPrefix ++ natStr n) (if isEmptyId then some newId else none))
    pure (k (C.cfg.linkPrefix ++ natStr n) newId)) := by
  intro w a w' hi e
  simp only [run_incLink, run_getSt] at e
  have hw : w.incLink.2.st.aux = w.st.aux := rfl
  rw [hw] at e
  cases hl : alLookup label w.st.aux.notes with
  | none =>
    have : KeepsIds C (do
        let k ← incLinkP
        pure (C.cfg.linkPrefix ++ natStr k)) :=
      keepsIds_bind (keepsIds_incLink C) (fun _ => (keepsIds_plain C).ret _)
    simp only [hl, if_true, LawfulMonad.bind_assoc, run_incLink, pure_bind, run_setAux, run_pure,
      Except.ok.injEq, Prod.mk.injEq] at e
    rw [← e.2]
    refine hi.extend [] (by simp) (by simp [World.incLink, World.setAux]; omega) (by simp) ?_ ?_
    · intro x; simp [World.setAux, addRefId, World.incLink, hl, PState.ids]
    · simp [World.setAux, addRefId, World.incLink, hl]; exact hi.sorted
  | some note =>
    by_cases hid : note.id = []
    · simp only [hl, hid, List.isEmpty_nil, if_true, LawfulMonad.bind_assoc, run_incLink, pure_bind, run_setAux,
        run_pure, Except.ok.injEq, Prod.mk.injEq] at e
      rw [← e.2]
      refine hi.extend [w.st.linkIndex + 1, w.st.linkIndex + 1 + 1]
        (by simp [World.incLink, World.setAux]; omega) (by simp [World.incLink, World.setAux]; omega) (by simp) ?_ ?_
      · intro x
        have := count_noteIds_insert x label
          { note with refids := note.refids ++ [C.cfg.linkPrefix ++ natStr (w.st.linkIndex + 1)],
                      id := C.cfg.linkPrefix ++ natStr (w.st.linkIndex + 1 + 1) } hi.sorted
        rw [hl] at this
        simp only [count_ids_notes, World.setAux, World.incLink, addRefId, hl, Option.getD_some] at this ⊢
        have hne : C.cfg.linkPrefix ++ natStr (w.st.linkIndex + 1 + 1) ≠ [] := by simp [natStr_ne_nil]
        simp only [NoteInfo.ids, hid, hne, if_true, if_false, List.count_append, List.count_cons, List.count_nil,
          List.map_cons, List.map_nil, beq_iff_eq, List.nil_append] at this ⊢
        omega
      · simp only [World.setAux, addRefId, World.incLink, hl]
        exact btInsert_sorted _ _ hi.sorted
    · have hf : note.id.isEmpty = false := by simpa using hid
      simp only [hl, hf, Bool.false_eq_true, if_false, pure_bind, run_setAux,
        run_pure, Except.ok.injEq, Prod.mk.injEq] at e
      rw [← e.2]
      refine hi.extend [w.st.linkIndex + 1]
        (by simp [World.incLink, World.setAux]) (by simp [World.incLink, World.setAux]) (by simp) ?_ ?_
      · intro x
        have := count_noteIds_insert x label
          { note with refids := note.refids ++ [C.cfg.linkPrefix ++ natStr (w.st.linkIndex + 1)],
                      id := note.id } hi.sorted
        rw [hl] at this
        simp only [count_ids_notes, World.setAux, World.incLink, addRefId, hl, Option.getD_none] at this ⊢
        simp only [NoteInfo.ids, hid, if_false, List.count_append, List.count_cons, List.count_nil,
          List.map_cons, List.map_nil, beq_iff_eq] at this ⊢
        omega
      · simp only [World.setAux, addRefId, World.incLink, hl]
        exact btInsert_sorted _ _ hi.sorted

theorem keepsIds_ofR (C : Ctx) {α : Type} (r : R α) : KeepsIds C (ofR r) := (keepsIds_plain C).ofR r

theorem keepsIds_noteRef (C : Ctx) (m : Mat) : KeepsIds C (fNoteRef C m) := by
  unfold fNoteRef
  refine keepsIds_bind (keepsIds_ofR C _) (fun ba => keepsIds_bind (keepsIds_noteSeq C _) (fun num => ?_))
  exact keepsIds_addRef C (m.grp 2) (fun refid newId => generateTag C.U t!"sup" (some
    (if m.grp 3 ≠ t!"!" then t!"<a href=\"#note" ++ newId ++ t!"\">" ++
      (t!"<span id=\"noteref" ++ refid ++ t!"\">" ++ num ++ t!"</span>") ++ t!"</a>"
     else t!"<span id=\"noteref" ++ refid ++ t!"\">" ++ num ++ t!"</span>")) ba.html)

theorem keepsIds_ensureNote (C : Ctx) (l : Str) : KeepsIds C (ensureNote C l) := by
  unfold ensureNote
  intro w a w' hi e
  simp only [run_getSt] at e
  cases hl : alLookup l w.st.aux.notes with
  | some n =>
    simp only [hl, run_pure, Except.ok.injEq, Prod.mk.injEq] at e
    rw [← e.2]; exact hi
  | none =>
    simp only [hl, run_incLink] at e
    simp [setAuxP, run] at e
    rw [← e]
    refine hi.extend [w.st.linkIndex + 1] (by simp [World.incLink, World.setAux])
      (by simp [World.incLink, World.setAux]) (by simp) ?_ (btInsert_sorted _ _ hi.sorted)
    intro x
    have := count_noteIds_insert x l
      ⟨C.cfg.linkPrefix ++ natStr (w.st.linkIndex + 1), none, none, none, none, []⟩ hi.sorted
    rw [hl] at this
    have hne : C.cfg.linkPrefix ++ natStr (w.st.linkIndex + 1) ≠ [] := by simp [natStr_ne_nil]
    simp only [count_ids_notes, World.setAux, World.incLink]
    simp only [NoteInfo.ids, hne, if_false, List.count_append, List.count_cons, List.count_nil,
          List.map_cons, List.map_nil, beq_iff_eq] at this ⊢
    omega

theorem keepsIds_storeNote (C : Ctx) (l k a c : Str) : KeepsIds C (storeNote C l k a c) := by
  unfold storeNote
  intro w r w' hi e
  simp only [run_getSt] at e
  cases hl : alLookup l w.st.aux.notes with
  | none =>
    simp only [hl, run_pure, Except.ok.injEq, Prod.mk.injEq] at e
    rw [← e.2]; exact hi
  | some note =>
    simp only [hl] at e
    split at e
    · obtain ⟨ba, w1, e1, e2⟩ := run_bind_inv e
      have hw : w1 = w := by
        unfold parseAttrs at e1
        cases hp : BAttrs.parse C.U a none C.cfg.restricted with
        | error x => rw [hp] at e1; simp [ofR, run] at e1
        | ok x => rw [hp] at e1; simp [ofR, run] at e1; exact e1.2.symm
      subst hw
      simp only [run_setAux, run_pure, Except.ok.injEq, Prod.mk.injEq] at e2
      rw [← e2.2]
      refine hi.extend [] (by simp) (Nat.le_refl _) (by simp) ?_ (btInsert_sorted _ _ hi.sorted)
      intro x
      have := count_noteIds_insert x l
        { note with
          link := if k.isEmpty then none else some k
          attrs := some ba.toStr
          content := some c } hi.sorted
      rw [hl] at this
      simp only [count_ids_notes, World.setAux]
      simp only [NoteInfo.ids] at this ⊢
      omega
    · simp only [run_pure, Except.ok.injEq, Prod.mk.injEq] at e
      rw [← e.2]; exact hi

/-- Inserting never adds ids other than those of the new entry. -/
theorem count_noteIds_le (x : Str) (k : Str) (v : NoteInfo) : ∀ (l : List (Str × NoteInfo)),
    (noteIds (btInsert k v l)).count x ≤ v.ids.count x + (noteIds l).count x
  | [] => by simp [btInsert, noteIds]
  | (a, b) :: l => by
    have ih := count_noteIds_le x k v l
    rw [btInsert]
    simp only [noteIds] at ih ⊢
    split
    · simp only [List.flatMap_cons, List.count_append]; omega
    · split
      · simp only [List.flatMap_cons, List.count_append]; omega
      · simp only [List.flatMap_cons, List.count_append]; omega

theorem splitNotes_count (a : Aux) (x : Str) : (noteIds (splitNotes a).notes).count x +
    (noteIds (splitNotes a).unrefNotes).count x ≤ (noteIds a.notes).count x + (noteIds a.unrefNotes).count x := by
  unfold splitNotes
  split
  · exact Nat.le_refl _
  · simp only
    have gen : ∀ (l : List (Str × NoteInfo)) (o : List (Str × NoteInfo) × List (Str × NoteInfo)),
        (noteIds (l.foldl (fun o p => match p.2.seq with
          | some i => (btInsert i { p.2 with seq := some p.1 } o.1, o.2)
          | none => (o.1, btInsert p.1 p.2 o.2)) o).1).count x +
        (noteIds (l.foldl (fun o p => match p.2.seq with
          | some i => (btInsert i { p.2 with seq := some p.1 } o.1, o.2)
          | none => (o.1, btInsert p.1 p.2 o.2)) o).2).count x ≤
        (noteIds l).count x + (noteIds o.1).count x + (noteIds o.2).count x := by
      intro l
      induction l with
      | nil => intro o; simp [noteIds]
      | cons p l ih =>
        intro o
        rw [List.foldl_cons]
        refine Nat.le_trans (ih _) ?_
        have e : (noteIds (p :: l)).count x = p.2.ids.count x + (noteIds l).count x := by
          simp [noteIds, List.count_append]
        rw [e]
        split
        · rename_i i _
          have := count_noteIds_le x i { p.2 with seq := some p.1 } o.1
          have e2 : ({ p.2 with seq := some p.1 } : NoteInfo).ids = p.2.ids := rfl
          rw [e2] at this
          simp only at this ⊢; omega
        · have := count_noteIds_le x p.1 p.2 o.2
          simp only; omega
    have := gen a.notes ([], a.unrefNotes)
    simp only [noteIds, List.flatMap_nil, List.count_nil, Nat.add_zero] at this ⊢
    exact this

theorem splitNotes_sorted (a : Aux) (h : Spec.SortedNames a.notes) : Spec.SortedNames (splitNotes a).notes := by
  unfold splitNotes
  split
  · exact h
  · simp only
    have gen : ∀ (l : List (Str × NoteInfo)) (o : List (Str × NoteInfo) × List (Str × NoteInfo)),
        Spec.SortedNames o.1 → Spec.SortedNames (l.foldl (fun o p => match p.2.seq with
          | some i => (btInsert i { p.2 with seq := some p.1 } o.1, o.2)
          | none => (o.1, btInsert p.1 p.2 o.2)) o).1 := by
      intro l
      induction l with
      | nil => intro o h; exact h
      | cons p l ih =>
        intro o h
        rw [List.foldl_cons]
        refine ih _ ?_
        split
        · exact btInsert_sorted _ _ h
        · exact h
    exact gen a.notes ([], a.unrefNotes) trivial

theorem keepsIds_closed (C : Ctx) : Closed C (KeepsIds C) where
  ret := (keepsIds_plain C).ret
  fail := (keepsIds_plain C).fail
  bind := (keepsIds_plain C).bind
  shelve v := keepsIds_shelve C _ v
  storeUrl := (keepsIds_plain C).shelveUrl
  storeTags := (keepsIds_plain C).storeTags
  image := (keepsIds_plain C).fImage (keepsIds_shelve C _)
  link := (keepsIds_plain C).fLink (keepsIds_shelve C _)
  incLink := keepsIds_incLink C
  footnote := keepsIds_footnote C
  noteRef := keepsIds_noteRef C
  ensureNote := keepsIds_ensureNote C
  storeNote := keepsIds_storeNote C
  splitNotes := by
    intro w a w' hi e
    simp [setAuxP, run] at e
    rw [← e]
    refine hi.extend [] (by simp) (Nat.le_refl _) (by simp) ?_ (splitNotes_sorted _ hi.sorted)
    intro x
    have := splitNotes_count w.st.aux x
    simp only [count_ids_notes, World.setAux]
    omega
  setAux f hf := keepsIds_same (by
    intro w a w' e; simp [setAuxP, run] at e; rw [← e]
    exact ⟨rfl, (hf _).1, (hf _).2.1, Nat.le_refl _⟩)
  getSt := (keepsIds_plain C).getSt
  getPat s := keepsIds_same (by
    intro w a w' e; simp [getPatP, run] at e; rw [← e.2, getPat_st]; simp)
  level hb := by
    refine keepsIds_bind (keepsIds_same ?_) (fun d => keepsIds_bind ?_ (fun t =>
      keepsIds_bind (keepsIds_same ?_) (fun _ => (keepsIds_plain C).ret _)))
    · intro w a w' e; simp [spanEnterP, run] at e; rw [← e.2]; simp [World.spanEnter]
    · split
      · exact hb
      · exact (keepsIds_plain C).ret _
    · intro w a w' e; simp [spanLeaveP, run] at e; rw [← e]; simp [World.spanLeave]

/-- **C32**, the ids: at the end of a successful call the ids of all footnotes, notes
and note references that the call knows of are pairwise different, and made from the
prefix and a number. -/
theorem C32_ids (C : Ctx) (cache : Cache) (text out : Str) (w : World)
    (h : run C (parseP C text) { cache := cache } = .ok (out, w)) :
    w.st.ids.Nodup ∧ ∀ x ∈ w.st.ids, ∃ n, n ≤ w.st.linkIndex ∧ x = C.cfg.linkPrefix ++ natStr n := by
  have := (keepsIds_closed C).parseP text { cache := cache } out w
    ⟨by simp [PState.ids, noteIds], by simp [PState.ids, noteIds], trivial⟩ h
  exact ⟨List.nodup_iff_count.2 this.nodup, this.form⟩

/-- Six ids: a footnote, a note with two references, a note without references and
one that is only referenced. -/
example : ((run ⟨demoEnv, built t!"abc" [], 100⟩ (parseP ⟨demoEnv, built t!"abc" [], 100⟩
    t!"a[1] b[#x] c[#x] d[#z]\n\nnote#y. why") {}).map (fun r => r.2.st.ids)) =
    .ok [t!"abc-1", t!"abc-3", t!"abc-2", t!"abc-4", t!"abc-6", t!"abc-5", t!"abc-7"] := by decide +kernel

/-! ## C35 -/

/-- `p`, started at an allowed depth, ends at the same depth and stores tags of inline
elements only at allowed depths. -/
def KeepsDepth (C : Ctx) {α : Type} (p : Prog α) : Prop :=
  ∀ w, w.st.spanDepth ≤ C.cfg.maxSpanDepth →
    (∀ a w', run C p w = .ok (a, w') → w'.st.spanDepth = w.st.spanDepth) ∧
    ∀ kd d n v, .cached kd d n v ∈ trace C p w → d ≤ C.cfg.maxSpanDepth

theorem keepsDepth_bind {C : Ctx} {α β : Type} {p : Prog α} {f : α → Prog β} (hp : KeepsDepth C p)
    (hf : ∀ a, KeepsDepth C (f a)) : KeepsDepth C (p >>= f) := by
  intro w hw
  obtain ⟨h1, h2⟩ := hp w hw
  refine ⟨?_, ?_⟩
  · intro b w' e
    obtain ⟨a, w1, e1, e2⟩ := run_bind_inv e
    have := h1 a w1 e1
    rw [← this]
    exact (hf a w1 (by omega)).1 b w' e2
  · intro kd d n v h
    rw [trace_bind, List.mem_append] at h
    rcases h with h | h
    · exact h2 kd d n v h
    · cases hr : run C p w with
      | error e => rw [hr] at h; simp at h
      | ok q =>
        rw [hr] at h
        have := h1 q.1 q.2 hr
        exact (hf q.1 q.2 (by omega)).2 kd d n v h

theorem keepsDepth_silent {C : Ctx} {α : Type} {p : Prog α}
    (h1 : ∀ w a w', run C p w = .ok (a, w') → w'.st.spanDepth = w.st.spanDepth)
    (h2 : ∀ w kd d n v, .cached kd d n v ∈ trace C p w → d = w.st.spanDepth) : KeepsDepth C p :=
  fun w hw => ⟨h1 w, fun kd d n v h => by rw [h2 w kd d n v h]; exact hw⟩

theorem keepsDepth_shelve (C : Ctx) (k : ShelfKind) (v : Str) : KeepsDepth C (shelveP v k) :=
  keepsDepth_silent
    (by intro w b w' e; simp [shelveP, run] at e; rw [← e.2]; simp [World.shelve]) (by simp [shelveP, trace])

theorem keepsDepth_basic (C : Ctx) : Basic C (KeepsDepth C) where
  ret a := keepsDepth_silent (by intro w b w' e; simp [run] at e; rw [e.2]) (by simp [trace])
  fail e := keepsDepth_silent (by intro w b w' e; simp [run] at e) (by simp [trace])
  bind := keepsDepth_bind
  shelve v := keepsDepth_shelve C _ v
  shelveLink v := keepsDepth_shelve C _ v
  shelveImage _ v := keepsDepth_shelve C _ v
  cacheRef k v := keepsDepth_silent
    (by intro w b w' e; simp [cacheRefP, run] at e; rw [← e.2]; simp [World.cacheRef])
    (by intro w kd d n x; simp [cacheRefP, trace]; intro _ h _ _; exact h)
  getSt := keepsDepth_silent
    (by intro w b w' e; simp [getStP, run] at e; rw [← e.2]) (by simp [getStP, trace])
  probe _ _ u := keepsDepth_silent
    (by intro w b w' e; simp [probeP, run] at e; rw [← e.2]) (by simp [probeP, trace])
  incLink := keepsDepth_silent
    (by intro w b w' e; simp [incLinkP, run] at e; rw [← e.2]; simp [World.incLink]) (by simp [incLinkP, trace])
  setFootnote l i := keepsDepth_silent
    (by intro w b w' e; simp [setFootnoteP, run] at e; rw [← e]; simp [World.setFootnote])
    (by simp [setFootnoteP, trace])
  setAux f := keepsDepth_silent
    (by intro w b w' e; simp [setAuxP, run] at e; rw [← e]; simp [World.setAux]) (by simp [setAuxP, trace])
  getPat s := keepsDepth_silent
    (by intro w b w' e; simp [getPatP, run] at e; rw [← e.2, getPat_st]) (by simp [getPatP, trace])
  level := by
    intro body text hb w hw
    have e0 : run C (spanEnterP >>= fun d => (if d ≤ C.cfg.maxSpanDepth then body else pure text) >>= fun t =>
        spanLeaveP >>= fun _ => pure t) w =
      run C ((if w.st.spanDepth + 1 ≤ C.cfg.maxSpanDepth then body else pure text) >>= fun t =>
        spanLeaveP >>= fun _ => pure t) w.spanEnter.2 := rfl
    have t0 : trace C (spanEnterP >>= fun d => (if d ≤ C.cfg.maxSpanDepth then body else pure text) >>= fun t =>
        spanLeaveP >>= fun _ => pure t) w =
      trace C ((if w.st.spanDepth + 1 ≤ C.cfg.maxSpanDepth then body else pure text) >>= fun t =>
        spanLeaveP >>= fun _ => pure t) w.spanEnter.2 := rfl
    rw [e0, t0]
    have hd : w.spanEnter.2.st.spanDepth = w.st.spanDepth + 1 := rfl
    have tl : ∀ (t : Str) (v : World), trace C (spanLeaveP >>= fun _ => pure t) v = [] := fun _ _ => rfl
    have lv : ∀ (t : Str) (v : World), run C (spanLeaveP >>= fun _ => pure t) v = .ok (t, v.spanLeave) :=
      fun _ _ => rfl
    split
    · rename_i hle
      obtain ⟨h1, h2⟩ := hb w.spanEnter.2 (by omega)
      refine ⟨?_, ?_⟩
      · intro a w' e
        obtain ⟨t, w1, e1, e2⟩ := run_bind_inv e
        have := h1 t w1 e1
        rw [lv] at e2
        simp only [Except.ok.injEq, Prod.mk.injEq] at e2
        rw [← e2.2]
        simp [World.spanLeave, this, hd]
      · intro kd d n v h
        rw [trace_bind, List.mem_append] at h
        rcases h with h | h
        · exact h2 kd d n v h
        · cases hr : run C body w.spanEnter.2 with
          | error e => rw [hr] at h; simp at h
          | ok q => rw [hr] at h; dsimp only at h; rw [tl] at h; simp at h
    · refine ⟨?_, ?_⟩
      · intro a w' e
        rw [pure_bind, lv] at e
        simp only [Except.ok.injEq, Prod.mk.injEq] at e
        rw [← e.2]; simp [World.spanLeave, World.spanEnter]
      · intro kd d n v h
        rw [pure_bind, tl] at h; simp at h

/-- **C35** (part: the recursion).  Whatever the text, inline elements are only
generated at most `max_span_depth` recursive calls deep, and every piece of the
parser leaves the depth as it found it; in particular it is zero at the end.  This
does not bound the nesting of the elements in the output, see `C35_negation`. -/
theorem C35_depth_partial (C : Ctx) (cache : Cache) (text : Str) :
    (∀ kd d n v, .cached kd d n v ∈ trace C (parseP C text) { cache := cache } → d ≤ C.cfg.maxSpanDepth) ∧
    (∀ out w, run C (parseP C text) { cache := cache } = .ok (out, w) → w.st.spanDepth = 0) ∧
    (∀ t w a w', w.st.spanDepth ≤ C.cfg.maxSpanDepth →
      run C (span C t) w = .ok (a, w') → w'.st.spanDepth = w.st.spanDepth) := by
  have H := (keepsDepth_basic C).closed
  obtain ⟨h1, h2⟩ := H.parseP text { cache := cache } (Nat.zero_le _)
  exact ⟨h2, h1, fun t w a w' hw e => (H.span t w hw).1 a w' e⟩

/-- **C35**, the limit: at the maximal depth markup is left as it is. -/
theorem C35_limit (C : Ctx) (t : Str) (w : World) (hw : w.st.spanDepth = C.cfg.maxSpanDepth) :
    run C (span C t) w = .ok (t, w) := by
  unfold span
  rw [spanN_succ]
  have e0 : ∀ body : Prog Str, run C (spanEnterP >>= fun d => (if d ≤ C.cfg.maxSpanDepth then body else pure t) >>= fun t =>
        spanLeaveP >>= fun _ => pure t) w =
      run C ((if w.st.spanDepth + 1 ≤ C.cfg.maxSpanDepth then body else pure t) >>= fun t =>
        spanLeaveP >>= fun _ => pure t) w.spanEnter.2 := fun _ => rfl
  rw [e0, if_neg (by omega)]
  rfl

/-- The limit of every `Textile` value is five. -/
theorem C35_five (base : Str) (ss : List Setter) : (built base ss).maxSpanDepth = 5 := by
  obtain ⟨_, _, _, h⟩ := built_uid base ss
  exact h

/-- **C35 fails** for the nesting of the output: an element left alone at the maximal
depth is picked up by a later pattern of an outer call, so six levels are generated
although the limit is five. -/
theorem C35_negation : ∃ (E : Env) (fuel : Nat) (text : Str),
    parseFresh E fuel (built t!"abc" []) text =
      .ok t!"<p><strong><em><del><ins><sup><span>x</span></sup></ins></del></em></strong></p>" :=
  ⟨demoEnv, 100, t!"*_-+^%x%^+-_*", by decide +kernel⟩

/-- A sixth level that stays text (the marker of an element that is looked for
first). -/
example : parseFresh demoEnv 100 (built t!"abc" []) t!"~^+%_*x*_%+^~" =
    .ok t!"<p><sub><sup><ins><span><em>*x*</em></span></ins></sup></sub></p>" := by decide +kernel

end Rustextile
