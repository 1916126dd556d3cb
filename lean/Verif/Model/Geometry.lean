import Verif.Model.Quaternion
import Mathlib.Analysis.SpecialFunctions.Pow.Real

/-!
# Point projection, transformation and normalisation, fixed-size determinants and inverses, constant and indexed iterators

src/utMath/Geometry/PointProjection.h, PointTransformation.h, PointNormalization.h, src/utMath/Functors/MatrixFunctors.h,
src/utMath/Stochastic/identity_iterator.h, index_iterator.h.
-/

namespace Ubitrack

namespace Geometry

section Field

variable {K : Type*} [Field K]

/-- `ProjectPoint`, 3x3 matrix and 2-vector, PointProjection.h l.76-83. -/
def projectPoint33_2 (projMat : Mat K 3 3) (vec : Vec K 2) : Vec K 2 :=
  let e1 := projMat 0 0 * vec 0 + projMat 0 1 * vec 1 + projMat 0 2
  let e2 := projMat 1 0 * vec 0 + projMat 1 1 * vec 1 + projMat 1 2
  let e3 := projMat 2 0 * vec 0 + projMat 2 1 * vec 1 + projMat 2 2
  ![e1 / e3, e2 / e3]

/-- `ProjectPoint`, 3x4 matrix and 2-vector, PointProjection.h l.87-98. -/
def projectPoint34_2 (projMat : Mat K 3 4) (vec : Vec K 2) : Vec K 2 :=
  let e1 := projMat 0 0 * vec 0 + projMat 0 1 * vec 1 + projMat 0 3
  let e2 := projMat 1 0 * vec 0 + projMat 1 1 * vec 1 + projMat 1 3
  let e3 := projMat 2 0 * vec 0 + projMat 2 1 * vec 1 + projMat 2 3
  ![e1 / e3, e2 / e3]

/-- `ProjectPoint`, 3x4 matrix and 3-vector, PointProjection.h l.101-108. -/
def projectPoint34_3 (projMat : Mat K 3 4) (vec : Vec K 3) : Vec K 2 :=
  let e1 := projMat 0 0 * vec 0 + projMat 0 1 * vec 1 + projMat 0 2 * vec 2 + projMat 0 3
  let e2 := projMat 1 0 * vec 0 + projMat 1 1 * vec 1 + projMat 1 2 * vec 2 + projMat 1 3
  let e3 := projMat 2 0 * vec 0 + projMat 2 1 * vec 1 + projMat 2 2 * vec 2 + projMat 2 3
  ![e1 / e3, e2 / e3]

/-- `ProjectPoint`, 3x4 matrix and 4-vector, PointProjection.h l.111-118. -/
def projectPoint34_4 (projMat : Mat K 3 4) (vec : Vec K 4) : Vec K 2 :=
  let e1 := projMat 0 0 * vec 0 + projMat 0 1 * vec 1 + projMat 0 2 * vec 2 + projMat 0 3 * vec 3
  let e2 := projMat 1 0 * vec 0 + projMat 1 1 * vec 1 + projMat 1 2 * vec 2 + projMat 1 3 * vec 3
  let e3 := projMat 2 0 * vec 0 + projMat 2 1 * vec 1 + projMat 2 2 * vec 2 + projMat 2 3 * vec 3
  ![e1 / e3, e2 / e3]

/-- `TransformPoint`, 2x3 matrix and 2-vector, PointTransformation.h l.85-91. -/
def transformPoint23_2 (transMat : Mat K 2 3) (vec : Vec K 2) : Vec K 2 :=
  ![transMat 0 0 * vec 0 + transMat 0 1 * vec 1 + transMat 0 2,
    transMat 1 0 * vec 0 + transMat 1 1 * vec 1 + transMat 1 2]

/-- `TransformPoint`, 2x3 matrix and 3-vector, PointTransformation.h l.94-100. -/
def transformPoint23_3 (transMat : Mat K 2 3) (vec : Vec K 3) : Vec K 2 :=
  ![transMat 0 0 * vec 0 + transMat 0 1 * vec 1 + transMat 0 2 * vec 2,
    transMat 1 0 * vec 0 + transMat 1 1 * vec 1 + transMat 1 2 * vec 2]

/-- `TransformPoint`, 3x3 matrix and 2-vector, PointTransformation.h l.103-110. -/
def transformPoint33_2 (transMat : Mat K 3 3) (vec : Vec K 2) : Vec K 3 :=
  ![transMat 0 0 * vec 0 + transMat 0 1 * vec 1 + transMat 0 2,
    transMat 1 0 * vec 0 + transMat 1 1 * vec 1 + transMat 1 2,
    transMat 2 0 * vec 0 + transMat 2 1 * vec 1 + transMat 2 2]

/-- `TransformPoint`, 3x3 matrix and 3-vector, PointTransformation.h l.113-120. -/
def transformPoint33_3 (transMat : Mat K 3 3) (vec : Vec K 3) : Vec K 3 :=
  ![transMat 0 0 * vec 0 + transMat 0 1 * vec 1 + transMat 0 2 * vec 2,
    transMat 1 0 * vec 0 + transMat 1 1 * vec 1 + transMat 1 2 * vec 2,
    transMat 2 0 * vec 0 + transMat 2 1 * vec 1 + transMat 2 2 * vec 2]

/-- `TransformPoint`, 3x4 matrix and 2-vector, PointTransformation.h l.123-130. -/
def transformPoint34_2 (transMat : Mat K 3 4) (vec : Vec K 2) : Vec K 3 :=
  ![transMat 0 0 * vec 0 + transMat 0 1 * vec 1 + transMat 0 3,
    transMat 1 0 * vec 0 + transMat 1 1 * vec 1 + transMat 1 3,
    transMat 2 0 * vec 0 + transMat 2 1 * vec 1 + transMat 2 3]

/-- `TransformPoint`, 3x4 matrix and 3-vector, PointTransformation.h l.133-140. -/
def transformPoint34_3 (transMat : Mat K 3 4) (vec : Vec K 3) : Vec K 3 :=
  ![transMat 0 0 * vec 0 + transMat 0 1 * vec 1 + transMat 0 2 * vec 2 + transMat 0 3,
    transMat 1 0 * vec 0 + transMat 1 1 * vec 1 + transMat 1 2 * vec 2 + transMat 1 3,
    transMat 2 0 * vec 0 + transMat 2 1 * vec 1 + transMat 2 2 * vec 2 + transMat 2 3]

/-- `TransformPoint`, 3x4 matrix and 4-vector, PointTransformation.h l.143-150. -/
def transformPoint34_4 (transMat : Mat K 3 4) (vec : Vec K 4) : Vec K 3 :=
  ![transMat 0 0 * vec 0 + transMat 0 1 * vec 1 + transMat 0 2 * vec 2 + transMat 0 3 * vec 3,
    transMat 1 0 * vec 0 + transMat 1 1 * vec 1 + transMat 1 2 * vec 2 + transMat 1 3 * vec 3,
    transMat 2 0 * vec 0 + transMat 2 1 * vec 1 + transMat 2 2 * vec 2 + transMat 2 3 * vec 3]

/-- `TransformPoint`, 4x4 matrix and 2-vector, PointTransformation.h l.153-161. -/
def transformPoint44_2 (transMat : Mat K 4 4) (vec : Vec K 2) : Vec K 4 :=
  ![transMat 0 0 * vec 0 + transMat 0 1 * vec 1 + transMat 0 3,
    transMat 1 0 * vec 0 + transMat 1 1 * vec 1 + transMat 1 3,
    transMat 2 0 * vec 0 + transMat 2 1 * vec 1 + transMat 2 3,
    transMat 3 0 * vec 0 + transMat 3 1 * vec 1 + transMat 3 3]

/-- `TransformPoint`, 4x4 matrix and 3-vector, PointTransformation.h l.164-172. -/
def transformPoint44_3 (transMat : Mat K 4 4) (vec : Vec K 3) : Vec K 4 :=
  ![transMat 0 0 * vec 0 + transMat 0 1 * vec 1 + transMat 0 2 * vec 2 + transMat 0 3,
    transMat 1 0 * vec 0 + transMat 1 1 * vec 1 + transMat 1 2 * vec 2 + transMat 1 3,
    transMat 2 0 * vec 0 + transMat 2 1 * vec 1 + transMat 2 2 * vec 2 + transMat 2 3,
    transMat 3 0 * vec 0 + transMat 3 1 * vec 1 + transMat 3 2 * vec 2 + transMat 3 3]

/-- `TransformPoint`, 4x4 matrix and 4-vector, PointTransformation.h l.175-183. The last row is as in the code: the
third product uses `transMat( 3, 3 )`. -/
def transformPoint44_4 (transMat : Mat K 4 4) (vec : Vec K 4) : Vec K 4 :=
  ![transMat 0 0 * vec 0 + transMat 0 1 * vec 1 + transMat 0 2 * vec 2 + transMat 0 3 * vec 3,
    transMat 1 0 * vec 0 + transMat 1 1 * vec 1 + transMat 1 2 * vec 2 + transMat 1 3 * vec 3,
    transMat 2 0 * vec 0 + transMat 2 1 * vec 1 + transMat 2 2 * vec 2 + transMat 2 3 * vec 3,
    transMat 3 0 * vec 0 + transMat 3 1 * vec 1 + transMat 3 3 * vec 2 + transMat 3 3 * vec 3]

/-- `matrix_determinant`, 2x2, MatrixFunctors.h l.61-65. -/
def det2 (matrix : Mat K 2 2) : K := matrix 0 0 * matrix 1 1 - matrix 0 1 * matrix 1 0

/-- `matrix_determinant`, 3x3, MatrixFunctors.h l.74-85. -/
def det3 (matrix : Mat K 3 3) : K :=
  let val1 := matrix 0 0 * matrix 1 1 * matrix 2 2
  let val2 := matrix 0 0 * matrix 1 2 * matrix 2 1
  let val3 := matrix 0 1 * matrix 1 2 * matrix 2 0
  let val4 := matrix 0 1 * matrix 1 0 * matrix 2 2
  let val5 := matrix 0 2 * matrix 1 0 * matrix 2 1
  let val6 := matrix 0 2 * matrix 1 1 * matrix 2 0
  val1 - val2 + val3 - val4 + val5 - val6

/-- `matrix_inverse`, 2x2, MatrixFunctors.h l.120-135. The constructor reads the array row by row (Matrix.h l.117-123). -/
def inverse2 (matrix : Mat K 2 2) : Mat K 2 2 :=
  let A1_1 := matrix 0 0
  let A1_2 := matrix 0 1
  let A2_1 := matrix 1 0
  let A2_2 := matrix 1 1
  let determinant := A1_1 * A2_2 - A1_2 * A2_1
  !![A2_2 / determinant, -A1_2 / determinant;
     -A2_1 / determinant, A1_1 / determinant]

/-- `matrix_inverse`, 3x3, MatrixFunctors.h l.144-173. -/
def inverse3 (matrix : Mat K 3 3) : Mat K 3 3 :=
  let A1_1 := matrix 0 0
  let A1_2 := matrix 0 1
  let A1_3 := matrix 0 2
  let A2_1 := matrix 1 0
  let A2_2 := matrix 1 1
  let A2_3 := matrix 1 2
  let A3_1 := matrix 2 0
  let A3_2 := matrix 2 1
  let A3_3 := matrix 2 2
  let determinant := A1_1 * A2_2 * A3_3 - A1_1 * A2_3 * A3_2 - A1_2 * A2_1 * A3_3 + A1_2 * A2_3 * A3_1
    + A1_3 * A2_1 * A3_2 - A1_3 * A2_2 * A3_1
  !![(A2_2 * A3_3 - A2_3 * A3_2) / determinant, -(A1_2 * A3_3 - A1_3 * A3_2) / determinant,
       (A1_2 * A2_3 - A1_3 * A2_2) / determinant;
     -(A2_1 * A3_3 - A2_3 * A3_1) / determinant, (A1_1 * A3_3 - A1_3 * A3_1) / determinant,
       -(A1_1 * A2_3 - A1_3 * A2_1) / determinant;
     (A2_1 * A3_2 - A2_2 * A3_1) / determinant, -(A1_1 * A3_2 - A1_2 * A3_1) / determinant,
       (A1_1 * A2_2 - A1_2 * A2_1) / determinant]

/-- The loop over `i < N` of `generateNormalizationMatrix`, PointNormalization.h l.106-118: element `(i, i)` and
`(i, N)` are written, and the non-inverse branch reads back the element just written. -/
def normalizationStep {n : ℕ} (shift scale : Vec K n) (modInverse : Bool) (M : Mat K (n + 1) (n + 1)) (i : Fin n) :
    Mat K (n + 1) (n + 1) :=
  if modInverse then
    (M.updateRow i.castSucc (Function.update (M i.castSucc) i.castSucc (scale i))).updateRow i.castSucc
      (Function.update (Function.update (M i.castSucc) i.castSucc (scale i)) (Fin.last n) (shift i))
  else
    let row := Function.update (M i.castSucc) i.castSucc (1 / scale i)
    M.updateRow i.castSucc (Function.update row (Fin.last n) (-(row i.castSucc) * shift i))

/-- `generateNormalizationMatrix`, PointNormalization.h l.99-121. -/
def generateNormalizationMatrix {n : ℕ} (shift scale : Vec K n) (modInverse : Bool) : Mat K (n + 1) (n + 1) :=
  let modMatrix : Mat K (n + 1) (n + 1) := (0 : Mat K (n + 1) (n + 1)).updateRow (Fin.last n) (Pi.single (Fin.last n) 1)
  (List.finRange n).foldl (normalizationStep shift scale modInverse) modMatrix

end Field

/-- `estimateNormalizationParameters`, PointNormalization.h l.64-84, over the reals: the mean and the standard deviation
of every coordinate. -/
noncomputable def estimateNormalizationParameters {n : ℕ} (pts : List (Vec ℝ n)) : Vec ℝ n × Vec ℝ n :=
  let sums := pts.foldl (fun (s : Vec ℝ n × Vec ℝ n) p => (s.1 + p, s.2 + p * p)) (0, 0)
  let shift := (1 / (pts.length : ℝ)) • sums.1
  let scale := (1 / (pts.length : ℝ)) • sums.2
  (shift, fun i => Real.sqrt (scale i - shift i * shift i))

end Geometry

namespace Iterators

/-- `std::transform` over an `identity` range used as the first range, as in `transform_points`,
PointTransformation.h l.251-253: the loop compares the counter with the one of `end()` (identity_iterator.h l.174-199,
223-232), applies the function to the constant value and the next element of the other range. `none`: the second range
is read past its end. The counters are natural numbers: no container has 2^64 elements. -/
def transformIdentityFirst {α β γ : Type*} (op : α → β → γ) (value : α) : ℕ → ℕ → List β → Option (List γ)
  | counter, stop, rest =>
    if counter = stop then some []
    else match rest with
      | [] => none
      | b :: bs => (transformIdentityFirst op value (counter + 1) stop bs).map (op value b :: ·)

/-- `transform_points`, PointTransformation.h l.232-254, for any of the functors above. -/
def transformPoints {α β γ : Type*} (op : α → β → γ) (transformation : α) (pts : List β) : Option (List γ) :=
  let n := pts.length
  transformIdentityFirst op transformation 0 n pts

/-- `std::transform` with an `identity` range as the second range, as in `project_points`, PointProjection.h l.197-198;
the iterator of the constant never stops the loop. The state is the counter of the second iterator. -/
def transformIdentitySecond {α β γ : Type*} (op : β → α → γ) (value : α) : List β → ℕ → List γ
  | [], _ => []
  | b :: bs, counter => op b value :: transformIdentitySecond op value bs (counter + 1)

/-- `project_points`, PointProjection.h l.180-199, with the operator that flips its arguments (l.122-126). -/
def projectPoints {α β γ : Type*} (op : α → β → γ) (projection : α) (pts : List β) : List γ :=
  transformIdentitySecond (fun v m => op m v) projection pts 0

/-- Walking an `identity` range from `begin()` to `end()`, identity_iterator.h l.66-74, 125-128, 175-199, 223-232, with at
most `fuel` steps. -/
def walkIdentity {α : Type*} (value : α) : ℕ → ℕ → ℕ → Option (List α)
  | 0, _, _ => none
  | fuel + 1, counter, stop =>
    if counter ≠ stop then (walkIdentity value fuel (counter + 1) stop).map (value :: ·) else some []

/-- The state of an `indexed_iterator`, index_iterator.h l.82-89: the remaining values and the remaining indices. -/
structure Indexed (α ι : Type*) where
  values : List α
  index : List ι
  comp : ι

/-- `operator++`, index_iterator.h l.139-146: `std::find` from the current position, then advance both iterators by the
distance. -/
def Indexed.next {α ι : Type*} [DecidableEq ι] (it : Indexed α ι) : Indexed α ι :=
  let n := it.index.findIdx (· = it.comp)
  ⟨it.values.drop n, it.index.drop n, it.comp⟩

/-- `size`, index_iterator.h l.114-117. -/
def Indexed.size {α ι : Type*} [DecidableEq ι] (it : Indexed α ι) : ℕ := it.index.count it.comp

/-- `for ( it = r.begin(); it != r.end(); ++it )` collecting `*it`, index_iterator.h l.119-152, with at most `fuel` steps:
`operator!=` compares the position with the end of the index list. -/
def Indexed.walk {α ι : Type*} [DecidableEq ι] : ℕ → Indexed α ι → Option (List α)
  | 0, _ => none
  | fuel + 1, it =>
    if it.index = [] then some []
    else match it.values with
      | [] => none
      | v :: _ => (Indexed.walk fuel it.next).map (v :: ·)

end Iterators

end Ubitrack
