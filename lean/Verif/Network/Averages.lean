import Verif.Network.Totals

/-!
# Averages over the bubbles of a network

Model of `getTotalVolumeRatio`, `getTotalRatioVariance` (with its overload for a species id), `getTotalVolumeFraction` and the two columns that the monitor without space dimensions prints of them.  A quotient whose divisor vanishes has no value here (in the code it is not a number, or infinite).
-/

namespace Xolotl.Network.Averages

open Xolotl.Network.Totals

variable {d : ℕ} {K : Type*} [Field K] [LinearOrder K] [IsStrictOrderedRing K]

/-- The loop that looks for the vacancy species: the last one that is a vacancy.  xolotl/core/include/xolotl/core/network/impl/ReactionNetwork.tpp:1342-1350, 1409-1417. -/
def findVacancy (speciesNoI : List (Fin d)) (isVacancy : Fin d → Bool) : Option (Fin d) :=
  speciesNoI.foldl (fun found i => if isVacancy i then some i else found) none

/-- What the first reduction sums: over the bubbles, their sizes and their numbers of vacancies, `concentrations(i) * j * bubbleVolume / l`.  ReactionNetwork.tpp:1360-1377. -/
def ratioSum (v : Fin d) (net : List (Cluster d)) (radius c : ℕ → K) (k : Fin d) (minSize : ℕ) : K :=
  (net.map fun a => if 0 < (a.reg v).b then
    ∑ j ∈ (a.reg k).pts, if (minSize : ℤ) ≤ j then
      ∑ l ∈ (a.reg v).pts, c a.dof * (j : K) * (radius a.dof * radius a.dof * radius a.dof) / ((l : ℤ) : K) else 0 else 0).sum

/-- What the second reduction sums: `concentrations(i) * bubbleVolume * factor`.  ReactionNetwork.tpp:1381-1396, 1448-1463. -/
def volumeSum (v : Fin d) (net : List (Cluster d)) (radius c : ℕ → K) (k : Fin d) (minSize : ℕ) : K :=
  (net.map fun a => if 0 < (a.reg v).b then
    ∑ j ∈ (a.reg k).pts, if (minSize : ℤ) ≤ j then
      c a.dof * (radius a.dof * radius a.dof * radius a.dof) * factor a k else 0 else 0).sum

/-- What the first reduction of the variance sums: `d * d * concentrations(i) * bubbleVolume`.  ReactionNetwork.tpp:1427-1444. -/
def spreadSum (v : Fin d) (net : List (Cluster d)) (radius c : ℕ → K) (k : Fin d) (mean : K) (minSize : ℕ) : K :=
  (net.map fun a => if 0 < (a.reg v).b then
    ∑ j ∈ (a.reg k).pts, if (minSize : ℤ) ≤ j then
      ∑ l ∈ (a.reg v).pts,
        ((j : K) / ((l : ℤ) : K) - mean) * ((j : K) / ((l : ℤ) : K) - mean) * c a.dof * (radius a.dof * radius a.dof * radius a.dof) else 0 else 0).sum

/-- A division of doubles; `none`: not a finite number. -/
def quotient (x y : K) : Option K := if y = 0 then none else some (x / y)

/-- `getTotalVolumeRatio`.  ReactionNetwork.tpp:1336-1401. -/
def volumeRatio (v : Option (Fin d)) (net : List (Cluster d)) (radius c : ℕ → K) (k : Fin d) (minSize : ℕ) : Option K :=
  match v with
  | none => some 0
  | some v => quotient (ratioSum v net radius c k minSize) (volumeSum v net radius c k minSize)

/-- `getTotalRatioVariance`.  ReactionNetwork.tpp:1403-1468. -/
def ratioVariance (v : Option (Fin d)) (net : List (Cluster d)) (radius c : ℕ → K) (k : Fin d) (mean : K) (minSize : ℕ) : Option K :=
  match v with
  | none => some 0
  | some v => quotient (spreadSum v net radius c k mean minSize) (volumeSum v net radius c k minSize)

/-- The overload for a species id: the call has three arguments, so that the third one is the mean and the minimum size is its default.  xolotl/core/include/xolotl/core/network/ReactionNetwork.h:693-703. -/
def ratioVarianceById (v : Option (Fin d)) (net : List (Cluster d)) (radius c : ℕ → K) (k : Fin d) (_mean : K) (minSize : ℕ) : Option K :=
  ratioVariance v net radius c k (minSize : K) 0

/-- `getTotalVolumeFraction`; `pi` the constant of Constants.h.  ReactionNetwork.tpp:1548-1576. -/
def volumeFraction (pi : K) (net : List (Cluster d)) (radius c : ℕ → K) (k : Fin d) (minSize : ℕ) : K :=
  (net.map fun a => ∑ _j ∈ sizes a k minSize, c a.dof * (radius a.dof * radius a.dof * radius a.dof) * factor a k).sum * (4 * pi / 3)

/-- The last two columns of retentionOut.txt: zeros if there is next to no xenon.  xolotl/solver/src/monitor/PetscMonitor0D.cpp:424, 438-445. -/
def columns (v : Option (Fin d)) (net : List (Cluster d)) (radius c : ℕ → K) (xe : Fin d) : Option K × Option K :=
  if totalAtoms net c xe 1 < 1 / 10 ^ 16 then (some 0, some 0)
  else
    let ratio := volumeRatio v net radius c xe 2
    (ratio, ratio.bind fun r => ratioVariance v net radius c xe r 2)

end Xolotl.Network.Averages
