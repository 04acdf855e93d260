import Verif.Inert
import Verif.Lang

/-!
# Texts described by automata

`Auto.reach M r q`: where a match of `r` that starts in state `q` of the automaton can end.  If
there is no such state, for no state, then `r` does not match anywhere in a text the automaton
accepts.
-/

namespace Rustextile

/-- States, given by whether a text can end there and by the steps to other states. -/
abbrev Auto := List (Bool × List (Alpha × Nat))

namespace Auto

def step (M : Auto) (q : Nat) : List (Alpha × Nat) := match M[q]? with | some p => p.2 | none => []
def final (M : Auto) (q : Nat) : Bool := match M[q]? with | some p => p.1 | none => false

/-- What can stand before a state. -/
def prevs (M : Auto) (q : Nat) : List Alpha := M.flatMap (fun p => (p.2.filter (fun e => e.2 == q)).map (·.1))

def wf (M : Auto) : Bool := M.all (fun p => p.2.all (fun e => e.1.wf && decide (e.2 < M.length)))

/-- The text can be read from the state to the end. -/
def Run (M : Auto) : Nat → Str → Prop
  | q, [] => M.final q = true
  | q, c :: t => ∃ e ∈ M.step q, e.1.Mem c ∧ M.Run e.2 t

/-- The text before the state. -/
def Before (M : Auto) (q : Nat) (pre : Str) : Prop := q < M.length ∧
  ((pre = [] ∧ q = 0) ∨ ∃ c p, pre = c :: p ∧ ∃ A ∈ M.prevs q, A.Mem c)

/-- A position of a text. -/
def At (M : Auto) (q : Nat) (c : Cur) : Prop := M.Run q c.rest ∧ M.Before q c.pre

/-- The states reached by repeated steps. -/
def close (f : Nat → List Nat) : Nat → List Nat → List Nat
  | 0, S => S
  | n + 1, S => close f n ((S ++ S.flatMap f).eraseDups)

def reach (M : Auto) : Re → Nat → List Nat
  | .set n it, q => (((M.step q).filter (fun e => !e.1.never n it)).map (·.2)).eraseDups
  | .seq a b, q => ((reach M a q).flatMap (fun x => reach M b x)).eraseDups
  | .alt a b, q => (reach M a q ++ reach M b q).eraseDups
  | .star _ r, q =>
    let S := close (fun x => reach M r x) M.length [q]
    if S.contains q && S.all (fun x => (reach M r x).all (fun y => S.contains y)) then S else List.range M.length
  | .grp _ r, q => reach M r q
  | .bref _, _ => List.range M.length
  | .look false r, q => if (reach M r q).isEmpty then [] else [q]
  | .look true (.set n it), q => if !M.final q && (M.step q).all (fun e => e.1.never (!n) it) then [] else [q]
  | .behind false 0 r, q => if (reach M r q).isEmpty then [] else [q]
  | .behind false 1 (.set n it), q => if (M.prevs q).all (fun A => A.never n it) then [] else [q]
  | .bot, q => if q == 0 then [q] else []
  | .eot, q => if M.final q then [q] else []
  | .bol, q => if q == 0 || (M.prevs q).any (fun A => A.ascii.contains '\n') then [q] else []
  | .eol, q => if M.final q || (M.step q).any (fun e => e.1.ascii.contains '\n') then [q] else []
  | _, q => [q]

theorem step_lt {M : Auto} (h : M.wf = true) {q : Nat} {e : Alpha × Nat} (he : e ∈ M.step q) : e.1.wf = true ∧ e.2 < M.length := by
  unfold step at he
  split at he
  · rename_i p hp
    have := List.all_eq_true.1 (List.all_eq_true.1 h p (List.mem_of_getElem? hp)) e he
    simpa using this
  · simp at he

theorem step_prevs {M : Auto} {q : Nat} {e : Alpha × Nat} (he : e ∈ M.step q) : e.1 ∈ M.prevs e.2 := by
  unfold step at he
  split at he
  · rename_i p hp
    refine List.mem_flatMap.2 ⟨p, List.mem_of_getElem? hp, List.mem_map.2 ⟨e, ?_, rfl⟩⟩
    simpa using he
  · simp at he

theorem prevs_wf {M : Auto} (h : M.wf = true) {q : Nat} {A : Alpha} (hA : A ∈ M.prevs q) : A.wf = true := by
  obtain ⟨p, hp, h1⟩ := List.mem_flatMap.1 hA
  obtain ⟨e, he, rfl⟩ := List.mem_map.1 h1
  have := List.all_eq_true.1 (List.all_eq_true.1 h p hp) e (List.mem_filter.1 he).1
  simp at this; exact this.1

theorem At.lt {M : Auto} {q : Nat} {c : Cur} (h : M.At q c) : q < M.length := h.2.1

/-- Reading on. -/
theorem At.adv {M : Auto} (h : M.wf = true) : ∀ {w : Str} {q : Nat} {c c' : Cur}, M.At q c → Adv c w c' → ∃ q', M.At q' c'
  | [], q, c, c', ha, hw => by rw [Adv.nil_iff] at hw; exact ⟨q, by rw [hw]; exact ha⟩
  | x :: w, q, ⟨pre, rest⟩, c', ha, hw => by
    have e := hw.1
    simp only [List.cons_append] at e
    subst e
    obtain ⟨e, he, h1, h2⟩ := ha.1
    refine At.adv (w := w) (q := e.2) (c := ⟨x :: pre, w ++ c'.rest⟩) h ⟨h2, (step_lt h he).2, .inr ⟨x, pre, rfl, e.1, step_prevs he, h1⟩⟩ ⟨rfl, ?_⟩
    have := hw.2
    simpa using this

theorem close_sub {f : Nat → List Nat} : ∀ {n : Nat} {S : List Nat} {x : Nat}, x ∈ S → x ∈ close f n S
  | 0, _, _, h => h
  | n + 1, S, x, h => by
    unfold close
    exact close_sub (List.mem_eraseDups.2 (List.mem_append_left _ h))

variable {U : Uni} {M : Auto}

theorem star_sound {r : Re} {S : List Nat}
    (hr : ∀ q c s p, M.At q c → p ∈ r.all U c s → ∃ q' ∈ reach M r q, M.At q' p.1)
    (hS : ∀ x ∈ S, ∀ y ∈ reach M r x, y ∈ S) (g : Bool) :
    ∀ f q c s p, q ∈ S → M.At q c → p ∈ starAll (fun c s => r.all U c s) g f c s → ∃ q' ∈ S, M.At q' p.1
  | [], q, c, s, p, hq, hc, hp => by
    simp [starAll] at hp; subst hp; exact ⟨q, hq, hc⟩
  | _ :: f, q, c, s, p, hq, hc, hp => by
    have hp' : p = (c, s) ∨ p ∈ (r.all U c s).flatMap (fun p => starAll (fun c s => r.all U c s) g f p.1 p.2) := by
      unfold starAll at hp
      cases g
      · simpa using hp
      · simp only [if_true, List.mem_append, List.mem_singleton] at hp; exact hp.symm
    rcases hp' with rfl | hp'
    · exact ⟨q, hq, hc⟩
    · obtain ⟨x, hx, hp'⟩ := List.mem_flatMap.1 hp'
      obtain ⟨q1, h1, h2⟩ := hr q c s x hc hx
      exact star_sound hr hS g f q1 x.1 x.2 p (hS q hq q1 h1) h2 hp'

theorem same_sound {r : Re} {q : Nat} {c : Cur} {s : Caps} {p : Cur × Caps} (hc : M.At q c)
    (hp : p ∈ r.all U c s) (hr : ∀ w, r.lang U w → w = []) : ∃ q' ∈ [q], M.At q' p.1 := by
  obtain ⟨w, hw, lw⟩ := Re.all_lang r c s p hp
  rw [hr w lw, Adv.nil_iff] at hw
  exact ⟨q, by simp, by rw [hw]; exact hc⟩

theorem reach_sound (hU : UniOk U) (hM : M.wf = true) : ∀ (r : Re) (q : Nat) (c : Cur) (s : Caps) (p : Cur × Caps),
    M.At q c → p ∈ r.all U c s → ∃ q' ∈ reach M r q, M.At q' p.1
  | .eps, q, c, s, p, hc, hp => same_sound hc hp (fun _ h => h)
  | .wordb, q, c, s, p, hc, hp => same_sound hc hp (fun _ h => h)
  | .set n it, q, c, s, p, hc, hp => by
    obtain ⟨x, xs, h1, h2, rfl⟩ := mem_set.1 hp
    have hr := hc.1
    rw [h1] at hr
    obtain ⟨e, he, h3, h4⟩ := hr
    refine ⟨e.2, ?_, h4, (step_lt hM he).2, .inr ⟨x, c.pre, rfl, e.1, step_prevs he, h3⟩⟩
    rw [reach, List.mem_eraseDups]
    refine List.mem_map.2 ⟨e, List.mem_filter.2 ⟨he, ?_⟩, rfl⟩
    cases hn : e.1.never n it with
    | false => rfl
    | true => rw [Alpha.never_sound hU (step_lt hM he).1 hn h3] at h2; cases h2
  | .seq a b, q, c, s, p, hc, hp => by
    obtain ⟨c', s', h1, h2⟩ := mem_seq.1 hp
    obtain ⟨q1, h3, h4⟩ := reach_sound hU hM a q c s _ hc h1
    obtain ⟨q2, h5, h6⟩ := reach_sound hU hM b q1 c' s' p h4 h2
    exact ⟨q2, by rw [reach, List.mem_eraseDups]; exact List.mem_flatMap.2 ⟨q1, h3, h5⟩, h6⟩
  | .alt a b, q, c, s, p, hc, hp => by
    rw [reach]
    rcases mem_alt.1 hp with h | h
    · obtain ⟨q1, h3, h4⟩ := reach_sound hU hM a q c s _ hc h
      exact ⟨q1, List.mem_eraseDups.2 (List.mem_append_left _ h3), h4⟩
    · obtain ⟨q1, h3, h4⟩ := reach_sound hU hM b q c s _ hc h
      exact ⟨q1, List.mem_eraseDups.2 (List.mem_append_right _ h3), h4⟩
  | .star g r, q, c, s, p, hc, hp => by
    rw [reach]
    split
    · rename_i h
      simp only [Bool.and_eq_true, List.all_eq_true, List.contains_iff_mem] at h
      exact star_sound (fun q c s p => reach_sound hU hM r q c s p) h.2 g _ q c s p h.1 hc hp
    · obtain ⟨w, hw⟩ := Re.all_adv U (.star g r) c s p hp
      obtain ⟨q', h⟩ := hc.adv hM hw
      exact ⟨q', by simpa using h.lt, h⟩
  | .grp n r, q, c, s, p, hc, hp => by
    obtain ⟨c', s', h1, rfl⟩ := mem_grp.1 hp
    exact reach_sound hU hM r q c s (c', s') hc h1
  | .bref n, q, c, s, p, hc, hp => by
    obtain ⟨w, hw⟩ := Re.all_adv U (.bref n) c s p hp
    obtain ⟨q', h⟩ := hc.adv hM hw
    exact ⟨q', by rw [reach]; simpa using h.lt, h⟩
  | .look true (.set n it), q, c, s, p, hc, hp => by
    rw [reach]
    split
    · rename_i h
      exfalso
      rw [Bool.and_eq_true, List.all_eq_true] at h
      rcases c with ⟨pre, rest⟩
      have hr := hc.1
      cases rest with
      | nil => have : M.final q = true := hr; simp [this] at h
      | cons x xs =>
        obtain ⟨e, he, h1, -⟩ := hr
        have h2 := Alpha.never_sound hU (step_lt hM he).1 (h.2 e he) h1
        have h3 : evalSet U n it x = true := by
          unfold evalSet at h2 ⊢
          revert h2
          cases n <;> simp
        simp [Re.all, h3] at hp
    · exact same_sound hc hp (fun _ h => h)
  | .look true .eps, q, c, s, p, hc, hp => same_sound hc hp (fun _ h => h)
  | .look true (.seq _ _), q, c, s, p, hc, hp => same_sound hc hp (fun _ h => h)
  | .look true (.alt _ _), q, c, s, p, hc, hp => same_sound hc hp (fun _ h => h)
  | .look true (.star _ _), q, c, s, p, hc, hp => same_sound hc hp (fun _ h => h)
  | .look true (.grp _ _), q, c, s, p, hc, hp => same_sound hc hp (fun _ h => h)
  | .look true (.bref _), q, c, s, p, hc, hp => same_sound hc hp (fun _ h => h)
  | .look true (.look _ _), q, c, s, p, hc, hp => same_sound hc hp (fun _ h => h)
  | .look true (.behind _ _ _), q, c, s, p, hc, hp => same_sound hc hp (fun _ h => h)
  | .look true .bot, q, c, s, p, hc, hp => same_sound hc hp (fun _ h => h)
  | .look true .eot, q, c, s, p, hc, hp => same_sound hc hp (fun _ h => h)
  | .look true .bol, q, c, s, p, hc, hp => same_sound hc hp (fun _ h => h)
  | .look true .eol, q, c, s, p, hc, hp => same_sound hc hp (fun _ h => h)
  | .look true .wordb, q, c, s, p, hc, hp => same_sound hc hp (fun _ h => h)
  | .look false r, q, c, s, p, hc, hp => by
    obtain ⟨x, hx, rfl⟩ := mem_look_pos hp
    obtain ⟨q1, h3, -⟩ := reach_sound hU hM r q c s _ hc hx
    rw [reach, if_neg (by intro h; rw [List.isEmpty_iff.1 h] at h3; simp at h3)]
    exact ⟨q, by simp, hc⟩
  | .bot, q, c, s, p, hc, hp => by
    obtain ⟨h1, rfl⟩ := mem_bot.1 hp
    refine ⟨q, ?_, hc⟩
    rcases hc.2.2 with ⟨-, h⟩ | ⟨x, y, h, -⟩
    · subst h; simp [reach]
    · rw [h] at h1; cases h1
  | .eot, q, c, s, p, hc, hp => by
    obtain ⟨h1, rfl⟩ := mem_eot.1 hp
    refine ⟨q, ?_, hc⟩
    have := hc.1
    rw [h1] at this
    have : M.final q = true := this
    simp [reach, this]
  | .bol, q, c, s, p, hc, hp => by
    obtain ⟨h1, rfl⟩ := mem_bol.1 hp
    refine ⟨q, ?_, hc⟩
    rw [reach, if_pos]
    · simp
    · rcases hc.2.2 with ⟨-, h⟩ | ⟨x, y, h, A, hA, hx⟩
      · subst h; simp
      · rw [h] at h1
        simp at h1
        subst h1
        rw [Bool.or_eq_true]
        right
        refine List.any_eq_true.2 ⟨A, hA, ?_⟩
        rcases hx with hx | hx
        · simpa using hx
        · have := hx.2.1; exact absurd this (by decide)
  | .eol, q, c, s, p, hc, hp => by
    obtain ⟨h1, rfl⟩ := mem_eol.1 hp
    refine ⟨q, ?_, hc⟩
    rw [reach, if_pos]
    · simp
    · rcases h1 with h1 | h1
      · have := hc.1
        rw [h1] at this
        have : M.final q = true := this
        simp [this]
      · cases hr : c.rest with
        | nil => rw [hr] at h1; cases h1
        | cons x xs =>
          rw [hr] at h1
          simp at h1
          subst h1
          have := hc.1
          rw [hr] at this
          obtain ⟨e, he, h3, h4⟩ := this
          rw [Bool.or_eq_true]
          right
          refine List.any_eq_true.2 ⟨e, he, ?_⟩
          rcases h3 with hx | hx
          · simpa using hx
          · have := hx.2.1; exact absurd this (by decide)
  | .behind false 0 r, q, c, s, p, hc, hp => by
    have hp' := hp
    simp only [Re.all, Cur.back] at hp'
    cases hr : r.all U c s with
    | nil => rw [hr] at hp'; simp at hp'
    | cons x l =>
      obtain ⟨q1, h3, -⟩ := reach_sound hU hM r q c s x hc (by rw [hr]; simp)
      rw [reach, if_neg (by intro h; rw [List.isEmpty_iff.1 h] at h3; simp at h3)]
      exact same_sound hc hp (fun _ h => h)
  | .behind false 1 (.set n it), q, c, s, p, hc, hp => by
    rw [reach]
    split
    · rename_i h
      exfalso
      rw [List.all_eq_true] at h
      rcases c with ⟨pre, rest⟩
      simp only [Re.all] at hp
      rcases hc.2.2 with ⟨h1, -⟩ | ⟨x, y, h1, A, hA, hx⟩
      · simp only at h1; subst h1; simp [Cur.back] at hp
      · simp only at h1
        subst h1
        simp only [Cur.back, Alpha.never_sound hU (prevs_wf hM hA) (h A hA) hx] at hp
        simp at hp
    · exact same_sound hc hp (fun _ h => h)
  | .behind true n r, q, c, s, p, hc, hp => same_sound hc hp (fun _ h => h)
  | .behind false (n + 2) r, q, c, s, p, hc, hp => same_sound hc hp (fun _ h => h)
  | .behind false 1 .eps, q, c, s, p, hc, hp => same_sound hc hp (fun _ h => h)
  | .behind false 1 (.seq _ _), q, c, s, p, hc, hp => same_sound hc hp (fun _ h => h)
  | .behind false 1 (.alt _ _), q, c, s, p, hc, hp => same_sound hc hp (fun _ h => h)
  | .behind false 1 (.star _ _), q, c, s, p, hc, hp => same_sound hc hp (fun _ h => h)
  | .behind false 1 (.grp _ _), q, c, s, p, hc, hp => same_sound hc hp (fun _ h => h)
  | .behind false 1 (.bref _), q, c, s, p, hc, hp => same_sound hc hp (fun _ h => h)
  | .behind false 1 (.look _ _), q, c, s, p, hc, hp => same_sound hc hp (fun _ h => h)
  | .behind false 1 (.behind _ _ _), q, c, s, p, hc, hp => same_sound hc hp (fun _ h => h)
  | .behind false 1 .bot, q, c, s, p, hc, hp => same_sound hc hp (fun _ h => h)
  | .behind false 1 .eot, q, c, s, p, hc, hp => same_sound hc hp (fun _ h => h)
  | .behind false 1 .bol, q, c, s, p, hc, hp => same_sound hc hp (fun _ h => h)
  | .behind false 1 .eol, q, c, s, p, hc, hp => same_sound hc hp (fun _ h => h)
  | .behind false 1 .wordb, q, c, s, p, hc, hp => same_sound hc hp (fun _ h => h)

/-- The expression matches nowhere. -/
def avoids (M : Auto) (r : Re) : Bool := (List.range M.length).all (fun q => (reach M r q).isEmpty)

theorem all_none (hU : UniOk U) (hM : M.wf = true) {r : Re} {q : Nat} (hr : reach M r q = []) {c : Cur} (hc : M.At q c) (s : Caps) :
    r.all U c s = [] := by
  cases hl : r.all U c s with
  | nil => rfl
  | cons p l =>
    obtain ⟨q', h, -⟩ := reach_sound hU hM r q c s p hc (by rw [hl]; simp)
    rw [hr] at h; cases h

theorem at_start {t : Str} (hne : 0 < M.length) (h : M.Run 0 t) : M.At 0 ⟨[], t⟩ := ⟨h, hne, .inl ⟨rfl, rfl⟩⟩

theorem search_none_at (hU : UniOk U) (hM : M.wf = true) {r : Re} (hr : M.avoids r = true) {q : Nat} {pre t : Str} (h : M.At q ⟨pre, t⟩) :
    r.search U pre t = none := by
  apply Re.search_none_of
  intro a b e
  obtain ⟨q, hq⟩ := h.adv hM (w := a) (c' := ⟨a.reverse ++ pre, b⟩) ⟨e, rfl⟩
  exact all_none hU hM (List.isEmpty_iff.1 (List.all_eq_true.1 hr q (by simpa using hq.lt))) hq _

theorem search_none (hU : UniOk U) (hM : M.wf = true) {r : Re} (hr : M.avoids r = true) {t : Str} (hne : 0 < M.length) (h : M.Run 0 t) :
    r.search U [] t = none := search_none_at hU hM hr (at_start hne h)

end Auto
end Rustextile
