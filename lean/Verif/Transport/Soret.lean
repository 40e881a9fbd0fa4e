import Verif.Transport.Stencil

/-!
# Thermo-migration (Soret diffusion)

Model of `SoretDiffusionHandler::computeDiffusion` and `computePartialsForDiffusion` for one cluster.  Numbers are elements of an ordered field instead of doubles; `eps` is the machine epsilon of `util::equal`.
-/

namespace Xolotl.Transport.Soret

variable {K : Type*} [Field K] [LinearOrder K] [IsStrictOrderedRing K]

/-- What `computeDiffusion` adds to the cluster; `d`, `t`, `c` are the diffusion coefficients, temperatures and concentrations of the stencil.  xolotl/core/src/modified/SoretDiffusionHandler.cpp:158-180. -/
def rate (beta hL hR : K) (d t c : S1 K) : K :=
  -(2 * beta * d.mid * c.mid * (t.left + hL / hR * t.right - (1 + hL / hR) * t.mid) / (hL * (hL + hR))
    + beta * d.mid * (c.right - c.left) * (t.right - t.left) / ((hL + hR) * (hL + hR))
    + beta * c.mid * (d.right - d.left) * (t.right - t.left) / ((hL + hR) * (hL + hR)))

/-- The three values after `computePartialsForDiffusion`, `old` being those before: nothing is written when the three concentrations are numerically zero.  xolotl/core/src/modified/SoretDiffusionHandler.cpp:203-233. -/
def part (eps beta hL hR : K) (d t c : S1 K) (old : S1 K) : S1 K :=
  if |c.mid| < eps ∧ |c.left| < eps ∧ |c.right| < eps then old
  else
    { mid := -2 * beta * d.mid * (t.left + hL / hR * t.right - (1 + hL / hR) * t.mid) / (hL * (hL + hR))
        - beta * (d.right - d.left) * (t.right - t.left) / ((hL + hR) * (hL + hR))
      left := beta * d.mid * (t.right - t.left) / ((hL + hR) * (hL + hR))
      right := -beta * d.mid * (t.right - t.left) / ((hL + hR) * (hL + hR)) }

/-- The list of beta factors after `initialize`: the factors are appended without clearing the list, while the list of clusters is cleared.  `found` are the factors of the clusters found this time.  xolotl/core/src/modified/SoretDiffusionHandler.cpp:51-52, 75-95. -/
def betasAfter (before found : List K) : List K := found.foldl (fun l b => l ++ [b]) before

/-- The clusters after `initialize`.  xolotl/core/src/modified/SoretDiffusionHandler.cpp:51-52, 75-95. -/
def clustersAfter (_before found : List ℕ) : List ℕ := found.foldl (fun l b => l ++ [b]) []

end Xolotl.Transport.Soret
