import Verif.Demo

/-!
# What the theorems assume about Unicode

The model takes the Unicode tables as parameters (`Uni`).  Some theorems need the
following facts about them, all true of the tables of the Rust standard library and
of the regex engine: how ASCII characters are classified, and that white space is
not alphanumeric.
-/

namespace Rustextile

structure UniOk (U : Uni) : Prop where
  word : ∀ c, c.toNat < 128 → U.isWord c = (isUp c || isLow c || isDig c || c == '_')
  letter : ∀ c, c.toNat < 128 → U.isL c = (isUp c || isLow c)
  upper : ∀ c, c.toNat < 128 → U.isLu c = isUp c
  lower : ∀ c, c.toNat < 128 → U.isLl c = isLow c
  mark : ∀ c, c.toNat < 128 → U.isM c = false
  num : ∀ c, c.toNat < 128 → U.isN c = isDig c
  dec : ∀ c, c.toNat < 128 → U.isNd c = isDig c
  conn : ∀ c, c.toNat < 128 → U.isPc c = (c == '_')
  curr : ∀ c, c.toNat < 128 → U.isSc c = (c == '$')
  alnum : ∀ c, c.toNat < 128 → U.isAlnum c = (isUp c || isLow c || isDig c)
  alnumWs : ∀ c, isWs c = true → U.isAlnum c = false
  wordWs : ∀ c, isWs c = true → U.isWord c = false

theorem UniOk.demo : UniOk demoUni := by
  refine ⟨?_, ?_, ?_, ?_, ?_, ?_, ?_, ?_, ?_, ?_, ?_, ?_⟩ <;> intro c h <;>
    first
      | rfl
      | (simp only [demoUni]
         simp [isWs] at h
         simp [isUp, isLow, isDig]
         (repeat' constructor) <;> first | omega | (rintro rfl; revert h; decide))

end Rustextile
