/-!
# Model: arithmetic in templates (camkes/templates/macros.py)

`page_sizes` and `ctz` come from the capDL package, which is not part of the repository: the list
of page sizes (in ascending order) and `ctz` are parameters. Loops take a bound on the number of
rounds and answer `none` when it is used up.
-/

namespace Verif.Macros

/-- `ROUND_UP`, camkes/templates/macros.py:343-346; `none` is a failed assertion. Python's `//`
rounds towards minus infinity. -/
def roundUp (x y : Int) : Option Int := if y > 0 then some (Int.fdiv (x + y - 1) y * y) else none

/-- `ROUND_DOWN`, camkes/templates/macros.py:349-352. -/
def roundDown (x y : Int) : Option Int := if y > 0 then some (Int.fdiv x y * y) else none

/-- `align_page_address`, camkes/templates/macros.py:89-91: `address & ~(page_size-1)` for a
non-negative address, whose bits are kept where the mask has none. -/
def alignPageAddress (address pageSize : Nat) : Nat := address ^^^ (address &&& (pageSize - 1))

/-- The loop of `next_page_multiple`, camkes/templates/macros.py:80-81. -/
def nextLoop (size : Int) : Nat → Int → Option Int
  | 0, _ => none
  | fuel + 1, multiple => if size > multiple then nextLoop size fuel (multiple + 4096) else some multiple

/-- `next_page_multiple`, camkes/templates/macros.py:74-82. -/
def nextPageMultiple (fuel : Nat) (size : Int) (pageSizes : List Nat) : Option Int :=
  match pageSizes with
  | [] => none
  | p :: _ => nextLoop size fuel p

/-- `get_page_size`, camkes/templates/macros.py:122-134. -/
def getPageSize (size : Nat) (pageSizes : List Nat) : Nat :=
  match pageSizes.reverse.find? (fun sz => size ≥ sz && size % sz = 0) with
  | some sz => sz
  | none => 0

/-- The inner loop of `get_untypeds_from_range`, camkes/templates/macros.py:107-110. -/
def shrink (remaining : Nat) : Nat → Nat → Option Nat
  | 0, _ => none
  | fuel + 1, utSize =>
    if utSize > 0 then
      if utSize ≤ remaining then some utSize else shrink remaining fuel (utSize / 2)
    else some utSize

/-- The outer loop of `get_untypeds_from_range`, camkes/templates/macros.py:104-114. `remaining` is
an integer, as the loop ends as soon as it is not positive. -/
def untypedLoop (ctz : Nat → Nat) : Nat → Nat → Nat → Option (List (Nat × Nat))
  | 0, _, _ => none
  | fuel + 1, current, remaining =>
    if remaining > 0 then
      match shrink remaining (2 ^ ctz current + 1) (2 ^ ctz current) with
      | none => none
      | some ut =>
        (untypedLoop ctz fuel (current + ut) (remaining - ut)).map ((current, ctz ut) :: ·)
    else some []

/-- `get_untypeds_from_range`, camkes/templates/macros.py:94-115. -/
def untypeds (ctz : Nat → Nat) (fuel start size : Nat) : Option (List (Nat × Nat)) :=
  untypedLoop ctz fuel start size

/-- `type_to_fit_integer`, camkes/templates/macros.py:163-174: the width of the type. -/
def typeToFit (value : Nat) : Option Nat :=
  if value ≤ 2 ^ 8 then some 8
  else if value ≤ 2 ^ 16 then some 16
  else if value ≤ 2 ^ 32 then some 32
  else if value ≤ 2 ^ 64 then some 64
  else none

end Verif.Macros
