import Mathlib.Data.Nat.Log

/-!
# Network sizes and subdivision ratios

Model of the five network generators, from the options to the maximum sizes and the subdivision ratios given to the network.  `AmountType` is `std::uint32_t`, so that `max + 1` wraps.  `pow` on doubles is exact on the values it is compared with (they are below `2^53`).  A loop that never ends, a conversion out of range and a division by zero are `none`.
-/

namespace Xolotl.Network.Sizes

/-- Number of values of `AmountType`.  xolotl/core/include/xolotl/core/network/IReactionNetwork.h:29. -/
def word : ℕ := 2 ^ 32

/-- `max + 1` in `AmountType`. -/
def inc (a : ℕ) : ℕ := (a + 1) % word

/-- The loop `while (n > pow(w, i)) ++i;` started with `i` ends with `k`.  xolotl/core/src/network/PSINetworkHandler.cpp:72-75 and the same loops below. -/
inductive Loop (w n : ℕ) : ℕ → ℕ → Prop
  | stop {i} : ¬w ^ i < n → Loop w n i i
  | step {i k} : w ^ i < n → Loop w n (i + 1) k → Loop w n i k

/-- The exponent the loop ends with, and `max = pow(w, i) - 1`. -/
def adapt (w max : ℕ) : Option (ℕ × ℕ) :=
  if 2 ≤ w ∨ inc max ≤ 1 then
    let k := Nat.clog w (inc max)
    if w ^ k - 1 < word then some (k, w ^ k - 1) else none
  else none

/-- The options used by the generators, after conversion to `AmountType`. -/
structure Opts where
  imp : ℕ
  d : ℕ
  t : ℕ
  v : ℕ
  i : ℕ
  pureV : ℕ
  /-- `psi::getMaxHePerV(options.getMaxV(), options.getHeVRatio())`. -/
  heMax : ℕ
  gmin : ℕ
  wA : ℕ
  wB : ℕ
  deriving DecidableEq

/-- Arguments of the constructor of the network: sizes by species, and rows of ratios. -/
structure Net where
  sizes : List ℕ
  ratios : List (List ℕ)
  deriving DecidableEq, Repr

/-- `zrNetworkGenerator`, one species: adapted by 2 when not zero (ratio 2, otherwise 1), and adapted again.  xolotl/core/src/network/ZrNetworkHandler.cpp:24-62. -/
def zrAxis (max : ℕ) : Option (ℕ × ℕ) := if 0 < max then (adapt 2 max).map fun r => (r.2, 2) else some (max, 1)

/-- `zrNetworkGenerator`: vacancies, basal, interstitials.  xolotl/core/src/network/ZrNetworkHandler.cpp:17-73. -/
def zr (o : Opts) : Option Net := do
  let v ← zrAxis o.v
  let i ← zrAxis o.i
  let b ← zrAxis o.imp
  let v' ← adapt 2 v.1
  let i' ← adapt 2 i.1
  return ⟨[v'.2, b.1, i'.2], [[v.2, b.2, i.2]]⟩

/-- `neNetworkGenerator` and `feNetworkGenerator`, the same code.  xolotl/core/src/network/NENetworkHandler.cpp:17-53, xolotl/core/src/network/FeNetworkHandler.cpp:17-53. -/
def gasV (o : Opts) : Option Net :=
  if o.v < o.gmin then some ⟨[o.imp, o.v, o.i], [[inc o.imp, inc o.v, inc o.i]]⟩
  else do
    let g ← adapt o.wA o.imp
    let v ← adapt o.wB o.v
    return ⟨[g.2, v.2, o.i], [[o.wA, o.wB, inc o.i]]⟩

/-- `alloyNetworkGenerator`: vacancies, voids, faulted, interstitials, perfect, frank.  xolotl/core/src/network/AlloyNetworkHandler.cpp:17-51. -/
def alloy (o : Opts) : Option Net := do
  let s ← adapt o.wA o.imp
  let void ← adapt o.wA o.d
  let vLoop := if o.v = 0 then 0 else s.2
  let iLoop := if o.i = 0 then 0 else s.2
  let gV := if o.v = 0 then 1 else o.wA
  let gI := if o.i = 0 then 1 else o.wA
  return ⟨[o.v, void.2, vLoop, o.i, iLoop, iLoop], [[inc o.v, gV, gV, inc o.i, gI, gI]]⟩

/-- The local variables of `generatePSIReactionNetwork`. -/
structure Psi where
  he : ℕ
  d : ℕ
  t : ℕ
  v : ℕ
  i : ℕ
  wHe : ℕ
  wD : ℕ
  wT : ℕ
  wV : ℕ
  wI : ℕ
  delta : ℕ
  deriving DecidableEq

/-- Sizes and widths before any adaptation.  `2.0 / 3.0 * (double)maxHe` is the exact value here.  xolotl/core/src/network/PSINetworkHandler.cpp:31-62. -/
def psiStart (o : Opts) : Psi where
  he := if o.pureV = 0 then o.imp else if o.imp = 0 then 0 else o.heMax
  d := if o.pureV = 0 then o.d else if o.d = 0 then 0 else 2 * o.heMax / 3
  t := if o.pureV = 0 then o.t else if o.t = 0 then 0 else 2 * o.heMax / 3
  v := o.pureV
  i := o.i
  wHe := if o.imp = 0 then 1 else o.wA
  wD := if o.d = 0 then 1 else o.wA
  wT := if o.t = 0 then 1 else o.wA
  wV := o.wB
  wI := o.wB
  delta := 0

/-- Adaptation of helium, deuterium, tritium and vacancies.  xolotl/core/src/network/PSINetworkHandler.cpp:63-102. -/
def psiVacancy (o : Opts) (p : Psi) : Option Psi :=
  if p.v < o.gmin then some { p with wHe := inc p.he, wD := inc p.d, wT := inc p.t, wV := inc p.v }
  else do
    let he ← adapt p.wHe p.he
    let d ← adapt p.wD p.d
    let t ← adapt p.wT p.t
    let v ← adapt p.wV p.v
    -- the mixed size is only used for its exponent, so that nothing is converted back
    if 2 ≤ p.wV ∨ inc o.v ≤ 1 then
      return { p with he := he.2, d := d.2, t := t.2, v := v.2, delta := (v.1 + word - Nat.clog p.wV (inc o.v)) % word }
    else none

/-- Adaptation of interstitials.  xolotl/core/src/network/PSINetworkHandler.cpp:104-114. -/
def psiInterstitial (o : Opts) (p : Psi) : Option Psi :=
  if p.i ≤ o.gmin then some { p with wI := inc p.i }
  else (adapt p.wI p.i).map fun r => { p with i := r.2 }

/-- `for (auto k = 0; k < deltaI; k++) it = subdivRatios.insert(it, row)`; the `int` counter overflows (or the memory is exhausted) for a wrapped `deltaI`.  xolotl/core/src/network/PSINetworkHandler.cpp:127-130. -/
def insertRows (delta : ℕ) (row : List ℕ) (rows : List (List ℕ)) : Option (List (List ℕ)) :=
  if delta < 2 ^ 31 then some (List.replicate delta row ++ rows) else none

/-- The choice of the species list.  xolotl/core/src/network/PSINetworkHandler.cpp:116-186. -/
def psiNet (o : Opts) (p : Psi) : Option Net :=
  if o.gmin < p.i ∧ o.gmin ≤ p.v ∧ o.imp = 0 then some ⟨[0, p.v, p.i], [[1, p.wV, p.wI]]⟩
  else if 0 < p.d ∧ 0 < p.t then
    (insertRows p.delta [1, 1, 1, p.wV, 1] [[p.wHe, p.wD, p.wT, p.wV, p.wI]]).map (⟨[p.he, p.d, p.t, p.v, p.i], ·⟩)
  else if 0 < p.d then
    (insertRows p.delta [1, 1, p.wV, 1] [[p.wHe, p.wD, p.wV, p.wI]]).map (⟨[p.he, p.d, p.v, p.i], ·⟩)
  else if 0 < p.t then
    (insertRows p.delta [1, 1, p.wV, 1] [[p.wHe, p.wT, p.wV, p.wI]]).map (⟨[p.he, p.t, p.v, p.i], ·⟩)
  else if p.i < o.gmin then
    if p.wHe = 0 ∨ p.wV = 0 then none
    else (insertRows p.delta [1, p.wV, 1] [[inc p.he / p.wHe, inc p.v / p.wV, inc p.i], [p.wHe, p.wV, 1]]).map (⟨[p.he, p.v, p.i], ·⟩)
  else (insertRows p.delta [1, p.wV, 1] [[p.wHe, p.wV, p.wI]]).map (⟨[p.he, p.v, p.i], ·⟩)

/-- `generatePSIReactionNetwork`.  xolotl/core/src/network/PSINetworkHandler.cpp:25-186. -/
def psi (o : Opts) : Option Net := do psiNet o (← psiInterstitial o (← psiVacancy o (psiStart o)))

end Xolotl.Network.Sizes
