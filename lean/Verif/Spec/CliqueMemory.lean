/-!
# What becomes of tables when allocations fail
-/

namespace Nip.Spec

/-- A table is made of so many blocks; or it is missing, and so many blocks are lost; or the behaviour is undefined. -/
inductive Fate where
  | made (blocks : Nat)
  | missing (lost : Nat)
  | undefined
deriving Repr, DecidableEq

/-- What becomes of a table that is created when `k` is the number of the next allocation, and the number of the next one after that.  The five allocations are for the structure, the numbers of
states, the temporary indices, the numbers and the list of properties. -/
def tableFate (fails : Nat → Bool) (k : Nat) : Fate × Nat :=
  if fails k then (.missing 0, k + 1)
  else if fails (k + 2) then (.missing 0, k + 3)
  else if fails (k + 1) then (.missing 1, k + 3)
  else if fails (k + 3) then (.undefined, k + 4)
  else if fails (k + 4) then (.made 4, k + 5)
  else (.made 5, k + 5)

/-- Two tables are both made, or something is missing, or undefined. -/
def bothFates : Fate → Fate → Fate
  | .made a, .made b => .made (a + b)
  | .made _, .missing b => .missing b
  | .missing a, .made _ => .missing a
  | .missing a, .missing b => .missing (a + b)
  | _, _ => .undefined

/-- two tables in a row -/
def tablesFate (fails : Nat → Bool) (k : Nat) : Fate := bothFates (tableFate fails k).1 (tableFate fails (tableFate fails k).2).1

end Nip.Spec
