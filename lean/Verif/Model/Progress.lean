import Verif.Model.Float64

/-!
# Model of `/repo/magpie/utils/progress.py`

The result is the list of strings written to `stdout`. Floats are rational numbers, and the model has
a parameter `rd`, the rounding done after every float operation: `progressBar` rounds nothing,
`progressBar64` rounds to binary64 as the program does. Not modelled: `OverflowError` for integers
beyond the float range.
-/

namespace Magpie.Progress

/-- `s * n` for a string; empty for a negative `n`. -/
def strRep (s : String) (n : ℤ) : String := String.join (List.replicate n.toNat s)

/-- Arguments of `progress_bar` with a default value (progress.py:4-6). -/
structure Opts where
  explanation : Option String := none
  indexing : Bool := false
  numRefresh : ℤ := 50
  markerDone : String := "#"
  markerUndone : String := "_"
  barEdges : String := "|"
  barEdgeLeft : Option String := none
  barEdgeRight : Option String := none
  barLength : ℤ := 50

/-- `float(a) / float(b)` for Python ints. -/
def pyFloatDiv (rd : ℚ → ℚ) (a b : ℤ) : Py ℚ :=
  if rd b = 0 then .error .zeroDivisionError else .ok (rd (rd a / rd b))

/-- `a % b` for Python ints (result has the sign of `b`). -/
def pyIntMod (a b : ℤ) : Py ℤ := if b = 0 then .error .zeroDivisionError else .ok (a.fmod b)

/-- `_bar_counts` (progress.py:32), from `_percentage`. -/
def barCounts (rd : ℚ → ℚ) (percentage : ℚ) (barLength : ℤ) : ℤ :=
  trunc (rd (rd (percentage/100) * rd barLength))

/-- `_progress_bar` (progress.py:33-44). -/
def theBar (o : Opts) (counts : ℤ) : String :=
  let left := o.barEdgeLeft.getD o.barEdges
  let right := o.barEdgeRight.getD o.barEdges
  let bar := left
  let bar :=
    if counts ≠ 0 ∧ counts ≠ o.barLength then
      bar ++ strRep o.markerDone counts ++ strRep o.markerUndone (o.barLength - counts)
    else if counts = 0 then bar ++ strRep o.markerUndone o.barLength
    else bar ++ strRep o.markerDone o.barLength
  bar ++ right

/-- `"%d" % x`. -/
def fmtD (x : ℚ) : String := toString (trunc x)

/-- `_percentage_string` (progress.py:52-57). -/
def percentageString (p : ℚ) : String :=
  if p < 10 then "   " ++ fmtD p ++ "% "
  else if p ≠ 100 then "  " ++ fmtD p ++ "% "
  else " " ++ fmtD p ++ "% "

/-- `_index_string` (progress.py:45-48). -/
def indexString (o : Opts) (index length : ℤ) : String :=
  if o.indexing = true then "[" ++ toString (index + 1) ++ "/" ++ toString length ++ "]" else ""

/-- `progress_bar` (progress.py:31-71), `rd` being the rounding. -/
def progressBarIn (rd : ℚ → ℚ) (index length : ℤ) (o : Opts) : Py (List String) := do
  let q ← pyFloatDiv rd (index + 1) length
  let percentage := rd (q * 100)
  let bar := theBar o (barCounts rd percentage o.barLength)
  let idx := indexString o index length
  let numRefresh := if o.numRefresh ≥ length then length else o.numRefresh
  let refresh ← pyFloatDiv rd length numRefresh
  let pct := percentageString percentage
  let m ← pyIntMod (index + 1) (trunc refresh)
  if m = 0 ∨ index + 1 = length then
    let line := match o.explanation with
      | some e => "\r" ++ e ++ " : " ++ bar ++ pct ++ idx
      | none => "\r" ++ bar ++ pct ++ idx
    if index + 1 = length then
      let line' := match o.explanation with
        | some e => "\r" ++ e ++ " : " ++ bar ++ pct ++ idx ++ "\n"
        | none => "\r" ++ bar ++ pct ++ idx ++ "\n"
      return [line, line']
    else return [line]
  else return []

/-- `progress_bar` in exact arithmetic. -/
def progressBar (index length : ℤ) (o : Opts) : Py (List String) := progressBarIn id index length o

/-- `progress_bar` (progress.py:31-71) in double precision, as it runs. -/
def progressBar64 (index length : ℤ) (o : Opts) : Py (List String) := progressBarIn F64.flQ index length o

end Magpie.Progress
