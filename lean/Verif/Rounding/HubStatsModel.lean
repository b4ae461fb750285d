import Verif.Rounding.Skew
import Verif.HubClass.Model

/-!
# Statistics of the class `Hubness` with rounding

The neighbour lists and k-occurrences are integers and are taken from `Verif/HubClass/Model.lean`.
-/

set_option autoImplicit false

namespace HubToolbox.Rounding

/-- wrap64 arithmetic of numpy wraps around. -/
def wrap64 (z : ℤ) : ℤ := Int.bmod z (2 ^ 64)

/-- Numerator of `_gini_index` with `limiting='space'` (`/repo/hub_toolbox/hubness.py` lines 628-631). -/
def giniSpace (Nk : List ℕ) : ℤ :=
  (List.range Nk.length).foldl (fun (acc : ℤ) (i : ℕ) =>
    wrap64 (acc + wrap64 ((Nk.map (fun (x : ℕ) => |(x : ℤ) - (Nk.getD i 0 : ℤ)|)).sum))) 0

/-- Numerator of `_gini_index` with `limiting='time'` (`/repo/hub_toolbox/hubness.py` lines 632-633). -/
def giniTime (Nk : List ℕ) : ℤ :=
  wrap64 (Nk.flatMap (fun (y : ℕ) => Nk.map (fun (x : ℕ) => |(x : ℤ) - (y : ℤ)|))).sum

variable {K : Type} [Field K] [LinearOrder K]

/-- Absolute value of a float. -/
def xabs : XR K → XR K
  | .fin x => .fin |x|
  | .ninf => .pinf
  | a => a

/-- `_gini_index` as called by `fit_transform` (`/repo/hub_toolbox/hubness.py` lines 626-641, 713-718): the quotient of two numbers of type int64 is the
quotient of the numbers converted to float64. -/
def gini (R : Rounding K) (Nk : List ℕ) : XR K :=
  R.div (R.rnd ((if Nk.length > 10000 then giniSpace Nk else giniTime Nk : ℤ) : K)) (R.rnd ((wrap64 (2 * Nk.length * Nk.sum) : ℤ) : K))

/-- `_hood_index` (`/repo/hub_toolbox/hubness.py` lines 643-647). -/
def hood (R : Rounding K) (L : SkewLib K) (Nk : List ℕ) : XR K :=
  let a := Nk.map (fun v => R.ofNat v)
  R.div (R.mul (.fin (1 / 2)) (L.sum (a.map (fun v => xabs (R.sub v (R.mean L a)))))) (R.ofNat Nk.sum)

/-- `antihub_occurrence_` (`/repo/hub_toolbox/hubness.py` lines 656-663). Python rounds the quotient of two integers. -/
def antihubOccurrence (R : Rounding K) (Nk : List ℕ) : XR K :=
  R.rnd (((HubClass.argwhere Nk (fun x => x = 0)).length : K) / Nk.length)

/-- `hubs_` (`/repo/hub_toolbox/hubness.py` line 667); the product and the occurrences are floats. -/
def hubs (R : Rounding K) (hubSize : K) (k : ℕ) (Nk : List ℕ) : List ℕ :=
  HubClass.argwhere Nk (fun x => decide (XR.fle (R.mul (.fin hubSize) (R.ofNat k)) (R.ofNat x)))

/-- `hub_occurrence_` (`/repo/hub_toolbox/hubness.py` line 668). -/
def hubOccurrence (R : Rounding K) (hubSize : K) (k : ℕ) (Nk : List ℕ) (nTest : ℕ) : XR K :=
  R.div (R.div (R.ofNat ((R.hubs hubSize k Nk).map (fun (j : ℕ) => Nk.getD j 0)).sum) (R.ofNat k)) (R.ofNat nTest)

/-- `groupie_ratio_` (`/repo/hub_toolbox/hubness.py` line 733). -/
def groupie (R : Rounding K) (Nk : List ℕ) (nTest : ℕ) : XR K := R.div (R.ofNat (Nk.foldr max 0)) (R.ofNat nTest)

end HubToolbox.Rounding
