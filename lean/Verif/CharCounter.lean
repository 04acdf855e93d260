import Verif.Base

/-!
# /repo/src/charcounter.rs
-/

namespace Rustextile

/-- charcounter.rs:3-6: the arrays `chars` and `data`, zipped. -/
abbrev CharCounter := List (Char × Option Nat)

/-- charcounter.rs:9-14 `CharCounter::new`. -/
def CharCounter.new (chars : List Char) : CharCounter := chars.map (fun c => (c, none))

/-- charcounter.rs:28-35 `Index::index`. -/
def CharCounter.get (c : Char) : CharCounter → Except Err (Option Nat)
  | [] => .error (.panic t!"Counter has encountered an uncountable character")
  | (a, d) :: t => if a == c then .ok d else CharCounter.get c t

/-- charcounter.rs:40-47 `IndexMut::index_mut` followed by an assignment. -/
def CharCounter.set (c : Char) (v : Option Nat) : CharCounter → Except Err CharCounter
  | [] => .error (.panic t!"Counter has encountered an uncountable character")
  | (a, d) :: t =>
    if a == c then .ok ((a, v) :: t)
    else match CharCounter.set c v t with
      | .ok t' => .ok ((a, d) :: t')
      | .error e => .error e

/-- charcounter.rs:16-22 `CharCounter::dec`. -/
def CharCounter.dec (c : Char) (m : CharCounter) : Except Err CharCounter :=
  match CharCounter.get c m with
  | .error e => .error e
  | .ok none => .error (.panic t!"Trying to decrease an unitialized counter")
  | .ok (some v) => CharCounter.set c (some (if v > 0 then v - 1 else 0)) m

end Rustextile
