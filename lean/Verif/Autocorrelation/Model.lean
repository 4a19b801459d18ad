import Verif.DDDA.Model
import Mathlib.Data.List.Basic

/-!
# Model of `MPCDAnalysis.Autocorrelation`
-/

namespace OpenMPCD.Autocorrelation

open DDDA (DDDA)

variable {K : Type} [Field K] [LinearOrder K] {X : Type}

/-- One correlation time `N`: `(self._correlations[N], self._dataBuffers[N])`. -/
abbrev Lag (K X : Type) := DDDA K × List X

/-- State of an instance, `Analysis/MPCDAnalysis/Autocorrelation.py:50-57`. The two parallel lists are
one list of pairs. -/
structure Autocorr (K X : Type) where
  maxCorrelationTime : ℕ
  lags : List (Lag K X)

/-- Constructor, `Autocorrelation.py:29-57`. Simplification: the argument is an `int`, so the
`TypeError` branch does not occur. -/
def construct (maxCorrelationTime : ℤ) : Except PyErr (Autocorr K X) :=
  if maxCorrelationTime < 0 then .error .valueError
  else .ok ⟨maxCorrelationTime.toNat,
    List.replicate (maxCorrelationTime.toNat + 1) (DDDA.init, [])⟩

/-- `correlationTimeIsAvailable`, `Autocorrelation.py:67-95`. -/
def Autocorr.correlationTimeIsAvailable (a : Autocorr K X) (correlationTime : ℤ) :
    Except PyErr Bool :=
  if correlationTime < 0 then .error .valueError
  else if correlationTime > a.maxCorrelationTime then .error .valueError
  else match a.lags[0]? with
    | none => .error .indexError
    | some (c, _) => do
      let n ← DDDA.getSampleSize c
      .ok (decide ((n : ℤ) > correlationTime))

/-- `getAutocorrelation`, `Autocorrelation.py:98-130`. -/
def Autocorr.getAutocorrelation (a : Autocorr K X) (correlationTime : ℤ) :
    Except PyErr (DDDA K) :=
  if correlationTime < 0 then .error .valueError
  else if correlationTime > a.maxCorrelationTime then .error .valueError
  else do
    let available ← a.correlationTimeIsAvailable correlationTime
    if ¬ available then .error .valueError
    else match a.lags[correlationTime.toNat]? with
      | none => .error .indexError
      | some (c, _) => .ok c

/-- Body of the loop in `addDatum`, `Autocorrelation.py:161-168`, for correlation time `N`. -/
def stepLag (mult : X → X → K) (datum : X) (N : ℕ) (l : Lag K X) : Except PyErr (Lag K X) :=
  if l.2.length = N then
    match l.2 with
    | [] => .error .indexError
    | first :: rest => .ok (DDDA.addDatum l.1 (mult datum first), rest ++ [datum])
  else .ok (l.1, l.2 ++ [datum])

/-- The loop of `addDatum`, `Autocorrelation.py:161-168`, over the correlation times from `N` on. -/
def stepLags (mult : X → X → K) (datum : X) : ℕ → List (Lag K X) → Except PyErr (List (Lag K X))
  | _, [] => .ok []
  | N, l :: ls => do
    let l' ← stepLag mult datum N l
    let ls' ← stepLags mult datum (N + 1) ls
    .ok (l' :: ls')

/-- `addDatum`, `Autocorrelation.py:133-168`; `mult` is the multiplicator. -/
def Autocorr.addDatum (a : Autocorr K X) (mult : X → X → K) (datum : X) :
    Except PyErr (Autocorr K X) :=
  match a.lags with
  | [] => .error .indexError
  | (c0, b0) :: ls => do
    let ls' ← stepLags mult datum 1 ls
    .ok { a with lags := (DDDA.addDatum c0 (mult datum datum), b0) :: ls' }

/-- A client adding data one after the other. -/
def Autocorr.addData (a : Autocorr K X) (mult : X → X → K) : List X → Except PyErr (Autocorr K X)
  | [] => .ok a
  | x :: xs => do
    let a' ← a.addDatum mult x
    a'.addData mult xs

end OpenMPCD.Autocorrelation
