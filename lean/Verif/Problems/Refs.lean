import Verif.Problems.Model
import Mathlib.Algebra.Order.Floor.Ring
import Mathlib.Algebra.Order.Archimedean.Real.Basic

/-!
# Reference functions and stance data of the DDP examples

Sources: nmpc_ddp/tests/src/TestDDPBipedal.cpp 162-226, TestDDPVerticalMotion.cpp 243-258, TestDDPCentroidalMotion.cpp 206-281.

Simplifications: the functions are modelled over the reals (`M_PI` is `π`, comparisons are those of real numbers); the conversion of
a `double` to `int` after `std::floor` is the integer floor, and `% 2` is the remainder of C++ (`Int.tmod`).  Eigen's `normalize`
divides by the norm when the squared norm is positive; the vectors normalised here are never zero.
-/

namespace Nmpc.Problems

noncomputable section

/-- `epsilon_t` (TestDDPBipedal.cpp 170, TestDDPVerticalMotion.cpp 244, TestDDPCentroidalMotion.cpp 247). -/
def epsT : ℝ := lit (1 / 1000000)

/-! ## Bipedal walking -/

/-- `end_t` (TestDDPBipedal.cpp 167). -/
def Bipedal.endT : ℝ := lit 20

/-- `ref_zmp_func` (TestDDPBipedal.cpp 171-190). -/
def Bipedal.refZmpFunc (t : ℝ) : ℝ :=
  let t := t + epsT
  if t ≤ lit (3 / 2) ∨ t ≥ Bipedal.endT - lit (3 / 2) then 0
  else if (⌊(t - lit 1) / lit 1⌋).tmod 2 = 0 then lit (15 / 100) else lit (-15 / 100)

/-- `cog_pos_z_high`, `cog_pos_z_low` (TestDDPBipedal.cpp 195-196). -/
def Bipedal.zHigh : ℝ := lit 1
/-- See `zHigh`. -/
def Bipedal.zLow : ℝ := lit (3 / 10)

/-- The values of `cog_pos_z` and `cog_acc_z` after the cascade of branches (TestDDPBipedal.cpp 197-222), as a function of the
shifted time. -/
def Bipedal.cogZ (t : ℝ) : ℝ × ℝ :=
  if t < lit 7 then (zHigh, 0)
  else if t < lit 8 then
    let scale := zLow - zHigh
    (scale * minJerk (t - lit 7) + zHigh, scale * minJerkSecondDeriv (t - lit 7))
  else if t < lit 12 then (zLow, 0)
  else if t < lit 13 then
    let scale := zHigh - zLow
    (scale * minJerk (t - lit 12) + zLow, scale * minJerkSecondDeriv (t - lit 12))
  else (zHigh, 0)

/-- `omega2_func` (TestDDPBipedal.cpp 191-225). -/
def Bipedal.omega2Func (t : ℝ) : ℝ :=
  let t := t + epsT
  ((Bipedal.cogZ t).2 + grav) / (Bipedal.cogZ t).1

/-- The problem of the test (TestDDPBipedal.cpp 226) with the weights of `CostWeight`. -/
def Bipedal.testProblem : Bipedal ℝ := Bipedal.default Bipedal.refZmpFunc Bipedal.omega2Func

/-! ## Vertical motion -/

/-- `ref_pos_func` (TestDDPVerticalMotion.cpp 245-257). -/
def Vertical.refPosFunc (t : ℝ) : ℝ :=
  let t := t + epsT
  if t < lit 8 then lit 1 else 0

/-! ## Centroidal motion -/

/-- `StanceData` (TestDDPCentroidalMotion.cpp 27-37): two matrices with the same number of columns. -/
structure StanceData where
  k : ℕ
  vertices : Mat 3 k ℝ
  ridges : Mat 3 k ℝ

/-- `vertex_list` (TestDDPCentroidalMotion.cpp 208-212); `lo` and `hi` are `rect_min_max[0]` and `rect_min_max[1]`. -/
def rectVertex (lo hi : Vec 2 ℝ) : Fin 4 → Vec 3 ℝ :=
  ![![lo 0, lo 1, 0], ![lo 0, hi 1, 0], ![hi 0, hi 1, 0], ![hi 0, lo 1, 0]]

/-- `theta` (TestDDPCentroidalMotion.cpp 217). -/
def ridgeAngle (i : Fin 4) : ℝ := lit 2 * Real.pi * (((i : ℕ) : ℝ) / lit 4)

/-- `ridge_list[i]` before the normalisation (TestDDPCentroidalMotion.cpp 218). -/
def ridgeRaw (i : Fin 4) : Vec 3 ℝ :=
  ![lit (1 / 2) * Real.cos (ridgeAngle i), lit (1 / 2) * Real.sin (ridgeAngle i), lit 1]

/-- `ridge_list[i]` (TestDDPCentroidalMotion.cpp 214-220). -/
def ridge (i : Fin 4) : Vec 3 ℝ :=
  if 0 < sqNorm (ridgeRaw i) then fun j => ridgeRaw i j / vnorm (ridgeRaw i) else ridgeRaw i

/-- `makeStanceDataFromRect` (TestDDPCentroidalMotion.cpp 206-237).  The two nested loops with the counter `col_idx` put vertex `i` and
ridge `j` into column `4 * i + j`. -/
def makeStanceDataFromRect (lo hi : Vec 2 ℝ) : StanceData where
  k := 16
  vertices := fun r c => rectVertex lo hi ⟨(c : ℕ) / 4, by omega⟩ r
  ridges := fun r c => ridge ⟨(c : ℕ) % 4, by omega⟩ r

/-- `ref_stance_func` (TestDDPCentroidalMotion.cpp 248-267). -/
def Centroidal.refStanceFunc (t : ℝ) : StanceData :=
  let t := t + epsT
  if t < lit (14 / 10) then makeStanceDataFromRect ![lit (-1 / 10), lit (-1 / 10)] ![lit (1 / 10), lit (1 / 10)]
  else if t < lit (16 / 10) then ⟨0, fun _ _ => 0, fun _ _ => 0⟩
  else makeStanceDataFromRect ![lit (4 / 10), lit (-1 / 10)] ![lit (6 / 10), lit (1 / 10)]

/-- `ref_pos_func` (TestDDPCentroidalMotion.cpp 268-280). -/
def Centroidal.refPosFunc (t : ℝ) : Vec 3 ℝ :=
  let t := t + epsT
  if t < lit (3 / 2) then ![0, 0, lit 1] else ![lit (1 / 2), 0, lit 1]

/-- The problem of the test (TestDDPCentroidalMotion.cpp 281) with the weights of `CostWeight` (41-46) and the mass of 203. -/
def Centroidal.testProblem : Centroidal ℝ where
  k := fun t => (Centroidal.refStanceFunc t).k
  vertices := fun t => (Centroidal.refStanceFunc t).vertices
  ridges := fun t => (Centroidal.refStanceFunc t).ridges
  refPos := Centroidal.refPosFunc
  runningX := ![lit 1, lit 1, lit 1, 0, 0, 0, lit 1, lit 1, lit 1]
  runningU := lit (1 / 1000000)
  terminalX := ![lit 1, lit 1, lit 1, 0, 0, 0, lit 1, lit 1, lit 1]
  mass := lit 100

end

end Nmpc.Problems
