import Verif.Regex

/-!
# The iterator of /repo/src/regextra.rs:19-101

`Re.split` (Verif/Regex.lean) states what the iterator yields; here is the
iterator itself, field by field.  `Verif/Props/Misc.lean` proves that the two
agree.
-/

namespace Rustextile

/-- regextra.rs:19-29 `ReSplitWithCapture`.  `findIter` holds the matches still to
come, each with the text between the previous match and itself (that is
`text[last_end..match.start()]`), `tail` is the text after the last match
(`text[last_end..]` once `find_iter` is exhausted). -/
structure SplitIter where
  findIter : List Mat
  tail : Str
  lastMatch : Option Mat := none
  readyForNext : Bool := true
  isExhausted : Bool := false
  nextGroupIndex : Nat := 0

/-- regextra.rs:34-79 `next`; `len` is the number of groups including group 0.
`none` stands for the `unreachable!()` of line 65. -/
def SplitIter.next (len : Nat) (it : SplitIter) : Option (Option Str × SplitIter) :=
  if it.isExhausted then some (none, it)
  else
    let it := if it.readyForNext then
        { it with lastMatch := it.findIter.head?, findIter := it.findIter.tail }
      else it
    match it.lastMatch with
    | some m =>
      if it.readyForNext then
        some (some m.gap, { it with readyForNext := len == 1, nextGroupIndex := 1 })
      else
        match m.get? it.nextGroupIndex with
        | some g =>
          some (some g, { it with
            nextGroupIndex := it.nextGroupIndex + 1
            readyForNext := if it.nextGroupIndex + 1 == len then true else it.readyForNext })
        | none => none
    | none => some (some it.tail, { it with isExhausted := true })

/-- Calling `next` until it returns `None`, at most `fuel` times. `none`: panic, or
the iterator was still running. -/
def SplitIter.collect (len : Nat) : Nat → SplitIter → Option (List Str)
  | 0, _ => none
  | f + 1, it =>
    match it.next len with
    | none => none
    | some (none, _) => some []
    | some (some s, it') => (SplitIter.collect len f it').map (s :: ·)

/-- regextra.rs:88-101 `split_with_capture`. -/
def splitIter (U : Uni) (r : Re) (text : Str) : SplitIter :=
  let t := r.matches U text
  { findIter := t.1, tail := t.2 }

end Rustextile
