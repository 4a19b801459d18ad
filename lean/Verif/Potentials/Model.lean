import Verif.Vec.Model
import Mathlib.Analysis.SpecialFunctions.Log.Basic
import Mathlib.Analysis.SpecialFunctions.Pow.Real

/-!
# Pair potentials

`include/OpenMPCD/PairPotentials`. Numbers are real numbers. Forces are `none` where the code normalises the
zero vector (exception in host code, not a number in device code).
-/

namespace OpenMPCD.Potentials

/-- `Base` (`include/OpenMPCD/PairPotentials/Base.hpp:23-70`): a potential and its force. -/
structure PairPotential where
  force : Vec3 ℝ → Option (Vec3 ℝ)
  potential : Vec3 ℝ → ℝ

/-- `forceOnR1DueToR2` (`include/OpenMPCD/PairPotentials/Base.hpp:63-68`). -/
def PairPotential.forceOnR1DueToR2 (p : PairPotential) (r1 r2 : Vec3 ℝ) : Option (Vec3 ℝ) :=
  p.force (r1 - r2)

/-- `FENE` (`include/OpenMPCD/PairPotentials/FENE.hpp:19-100`). -/
noncomputable def fene (K l0 R : ℝ) : PairPotential where
  force Rvec := do
    let abs_r := Rvec.cppMagnitude
    let n ← Rvec.cppGetNormalized
    some (((K * (abs_r - l0)) / (1 - ((abs_r - l0) * (abs_r - l0)) / (R * R))) • (-n))
  potential Rvec :=
    let tmp := (Rvec.cppMagnitude - l0) / R
    let tmp := tmp * tmp
    (-0.5) * K * R * R * Real.log (1 - tmp)

/-- `GEMn` (`include/OpenMPCD/PairPotentials/GEMn.hpp:20-69`). `pow` with the integral exponent
`double(n)`. -/
noncomputable def gemn (epsilon sigma : ℝ) (n : ℤ) : PairPotential where
  force R := do
    let abs_r := R.cppMagnitude
    let rOverSigma := (abs_r / sigma) ^ n
    let m ← R.cppGetNormalized
    some (((n * epsilon * rOverSigma * Real.exp ((-1) * rOverSigma)) / abs_r) • m)
  potential R := epsilon * Real.exp ((-1) * (R.cppMagnitude / sigma) ^ n)

open Classical in
/-- `LennardJones` (`include/OpenMPCD/PairPotentials/LennardJones.hpp:25-94`). -/
noncomputable def lennardJones (r_offset r_cut sigma epsilon : ℝ) : PairPotential where
  force R :=
    let Rv := R.cppMagnitude
    if Rv > r_cut then some 0
    else
      let oneOverRMinusROffset := 1 / (Rv - r_offset)
      let ratio := sigma * oneOverRMinusROffset
      let ratio6 := ratio ^ 6
      let ratio12 := ratio6 * ratio6
      do
        let n ← R.cppGetNormalized
        some ((24 * epsilon * (2 * ratio12 - ratio6) * oneOverRMinusROffset) • n)
  potential R :=
    let Rv := R.cppMagnitude
    if Rv > r_cut then 0
    else 4 * epsilon * ((sigma / (Rv - r_offset)) ^ 12 - (sigma / (Rv - r_offset)) ^ 6)

/-- `Morse` (`include/OpenMPCD/PairPotentials/Morse.hpp:19-71`). -/
noncomputable def morse (epsilon alpha sigma shift : ℝ) : PairPotential where
  force R := do
    let r := R.cppMagnitude
    let n ← R.cppGetNormalized
    some (((-1) * epsilon * ((-2) * alpha * Real.exp (-2 * alpha * (r - sigma)) +
      2 * alpha * Real.exp ((-1) * alpha * (r - sigma)))) • n)
  potential R :=
    let r := R.cppMagnitude
    epsilon * (Real.exp (-2 * alpha * (r - sigma)) - 2 * Real.exp ((-1) * alpha * (r - sigma))) - shift

open Classical in
/-- `WeeksChandlerAndersen` (`include/OpenMPCD/PairPotentials/WeeksChandlerAndersen.hpp:37-124`). -/
noncomputable def wca (epsilon sigma : ℝ) : PairPotential where
  force R :=
    let r2 := R.cppMagnitudeSquared
    let sigma2 := sigma * sigma
    let cutoff := (2 : ℝ) ^ (1 / 3 : ℝ) * sigma2
    if r2 ≥ cutoff then some 0
    else
      let frac2 := sigma2 / r2
      let frac6 := frac2 * frac2 * frac2
      let frac12 := frac6 * frac6
      some ((24 * epsilon / r2 * (2 * frac12 - frac6)) • R)
  potential R :=
    let r2 := R.cppMagnitudeSquared
    let sigma2 := sigma * sigma
    let cutoff := (2 : ℝ) ^ (1 / 3 : ℝ) * sigma2
    if r2 ≥ cutoff then 0
    else
      let frac2 := sigma2 / r2
      let frac6 := frac2 * frac2 * frac2
      let frac12 := frac6 * frac6
      4 * epsilon * (frac12 - frac6 + 1 / 4)

open Classical in
/-- `WeeksChandlerAndersen_DistanceOffset`
(`include/OpenMPCD/PairPotentials/WeeksChandlerAndersen_DistanceOffset.hpp:38-166`). -/
noncomputable def wcaOffset (epsilon sigma d : ℝ) : PairPotential where
  force R :=
    let r2 := R.cppMagnitudeSquared
    let sigma2 := sigma * sigma
    let cutoff := (2 : ℝ) ^ (1 / 6 : ℝ) * sigma
    let r := Real.sqrt r2
    if r - d ≥ cutoff then some 0
    else
      let denominator2 := (r - d) * (r - d)
      let frac2 := sigma2 / denominator2
      let frac6 := frac2 * frac2 * frac2
      let frac12 := frac6 * frac6
      some ((24 * epsilon / (r * (r - d)) * (2 * frac12 - frac6)) • R)
  potential R :=
    let r2 := R.cppMagnitudeSquared
    let sigma2 := sigma * sigma
    let cutoff := (2 : ℝ) ^ (1 / 6 : ℝ) * sigma
    let r := Real.sqrt r2
    if r - d ≥ cutoff then 0
    else
      let denominator2 := (r - d) * (r - d)
      let frac2 := sigma2 / denominator2
      let frac6 := frac2 * frac2 * frac2
      let frac12 := frac6 * frac6
      4 * epsilon * (frac12 - frac6 + 1 / 4)

/-- `MagneticDipoleDipoleInteraction_ConstantIdenticalDipoles`
(`include/OpenMPCD/PairPotentials/MagneticDipoleDipoleInteraction_ConstantIdenticalDipoles.hpp:56-164`). -/
noncomputable def dipole (prefactor : ℝ) (orientation : Vec3 ℝ) : PairPotential where
  force R :=
    let r2 := R.cppMagnitudeSquared
    let r_m2 := 1 / r2
    let r_m3 := r_m2 / Real.sqrt r2
    let r_m5 := r_m2 * r_m3
    let dot := orientation.dot R
    let F := (2 * dot) • orientation
    let F := F - (5 * r_m2 * dot * dot - 1) • R
    some ((3 * prefactor * r_m5) • F)
  potential R :=
    let r2 := R.cppMagnitudeSquared
    let r_m2 := 1 / r2
    let r_m3 := r_m2 / Real.sqrt r2
    let dot := R.dot orientation
    (-prefactor) * r_m3 * (3 * dot * dot * r_m2 - 1)

/-- `MagneticDipoleDipoleInteraction_ConstantEqualDipolesAlongZ`
(`include/OpenMPCD/PairPotentials/MagneticDipoleDipoleInteraction_ConstantEqualDipolesAlongZ.hpp:53-143`). -/
noncomputable def dipoleZ (prefactor : ℝ) : PairPotential where
  force R :=
    let r2 := R.cppMagnitudeSquared
    let r_m2 := 1 / r2
    let r_m3 := r_m2 / Real.sqrt r2
    let r_m5 := r_m2 * r_m3
    let r_m7 := r_m5 * r_m2
    let r_z_squared := R.z * R.z
    let F_x := -5 * R.x * r_z_squared * r_m7 + R.x * r_m5
    let F_y := -5 * R.y * r_z_squared * r_m7 + R.y * r_m5
    let F_z := -5 * R.z * r_z_squared * r_m7 + 3 * R.z * r_m5
    some ((3 * prefactor) • (⟨F_x, F_y, F_z⟩ : Vec3 ℝ))
  potential R :=
    let r2 := R.cppMagnitudeSquared
    let r_m2 := 1 / r2
    let r_m3 := r_m2 / Real.sqrt r2
    let r_z_squared := R.z * R.z
    (-prefactor) * r_m3 * (3 * r_z_squared * r_m2 - 1)

/-- `AdditivePair` (`include/OpenMPCD/PairPotentials/AdditivePair.hpp:19-74`). -/
noncomputable def additivePair (p1 p2 : PairPotential) : PairPotential where
  force R := do
    let f1 ← p1.force R
    let f2 ← p2.force R
    some (f1 + f2)
  potential R := p1.potential R + p2.potential R

/-- `Null` (`include/OpenMPCD/PairPotentials/Null.hpp:20-43`). -/
def null : PairPotential where
  force _ := some 0
  potential _ := 0

end OpenMPCD.Potentials
