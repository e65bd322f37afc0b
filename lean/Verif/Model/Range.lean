/-! The range check of the calls that take a range (DKPlatform.h). -/
namespace Duck

/-- `location + length` of DKRangeEnd (DKPlatform.h 298) leaves the 64 bits of a DKIndex, which is undefined behaviour in C.  It is only
    computed if neither is negative (DKRangeInsideOrEnd, 301, is a short-circuit conjunction). -/
def rangeOverflows (location length : Int) : Prop := 0 ≤ location ∧ 0 ≤ length ∧ 2 ^ 63 ≤ location + length

instance (a b : Int) : Decidable (rangeOverflows a b) := by unfold rangeOverflows; infer_instance

namespace Range

/-- DKRangeInsideOrEnd (DKPlatform.h 301) as the C standard has it; `none` is undefined behaviour. -/
def insideOrEnd (location length count : Int) : Option Bool :=
  if location ≥ 0 then
    if length ≥ 0 then
      if location + length < 2 ^ 63 then some (decide (location + length ≤ count)) else none
    else some false
  else some false

/-- DKRangeInsideOrEnd (DKPlatform.h 301) as the instructions of a 64-bit machine compute it, when the compiler does nothing special about
    the undefined case: two's complement addition and signed comparisons. -/
def insideOrEndMachine (location length count : BitVec 64) : Bool :=
  (0#64).sle location && (0#64).sle length && (location + length).sle count

end Range
end Duck
