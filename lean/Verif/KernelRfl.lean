import Lean

/-!
# `kernel_rfl`: equalities that hold by computation

Closes a goal `a = b` by reflexivity, leaving the check that both sides compute to the
same value to the kernel alone (the elaborator's own check is skipped, which is much
faster).  Unlike `decide`, the goal may contain variables.
-/

open Lean Elab Tactic Meta in
elab "kernel_rfl" : tactic => do
  let g ← getMainGoal
  let t ← instantiateMVars (← g.getType)
  let some (α, a, _) := t.consumeMData.eq? | throwError "kernel_rfl: the goal is not an equality"
  let u ← getLevel α
  g.assign (mkApp2 (mkConst ``Eq.refl [u]) α a)
  replaceMainGoal []
