import Verif.Model.Geometry
import Mathlib.Analysis.SpecialFunctions.Pow.Real
import Mathlib.LinearAlgebra.Matrix.Determinant.Basic

/-!
# Camera and OpenGL projection matrices

Source: src/utAlgorithm/Projection.cpp without the DLT. `double`/`float` are modelled by exact reals. LAPACK's RQ
decomposition (`gerqf`, `orgrq`) is a parameter.
-/

namespace Ubitrack.ProjectionMatrix

/-- The `ortho` matrix, Projection.cpp l.242-259. -/
noncomputable def ortho (l r b t n f : ℝ) : Mat ℝ 4 4 :=
  !![2.0 / (r - l), 0.0, 0.0, (r + l) / (l - r);
     0.0, 2.0 / (t - b), 0.0, (t + b) / (b - t);
     0.0, 0.0, 2.0 / (n - f), (f + n) / (n - f);
     0.0, 0.0, 0.0, 1.0]

/-- `m2` of `projectionMatrixToOpenGLimp`, Projection.cpp l.227-239. -/
noncomputable def intermediate (n f : ℝ) (m : Mat ℝ 3 4) : Mat ℝ 4 4 :=
  let norm := Real.sqrt (m 2 0 * m 2 0 + m 2 1 * m 2 1 + m 2 2 * m 2 2)
  let add := f * n * norm
  !![m 0 0, m 0 1, m 0 2, m 0 3;
     m 1 0, m 1 1, m 1 2, m 1 3;
     m 2 0 * (-f - n), m 2 1 * (-f - n), m 2 2 * (-f - n), m 2 3 * (-f - n) + add;
     m 2 0, m 2 1, m 2 2, m 2 3]

/-- `projectionMatrixToOpenGL` for 3x4 matrices, Projection.cpp l.225-272. -/
noncomputable def toOpenGL (l r b t n f : ℝ) (m : Mat ℝ 3 4) : Mat ℝ 4 4 := ortho l r b t n f * intermediate n f m

/-- `projectionMatrixToOpenGL` for 3x3 matrices, Projection.cpp l.274-296. -/
noncomputable def toOpenGL3 (l r b t n f : ℝ) (m : Mat ℝ 3 3) : Mat ℝ 4 4 :=
  let mat : Mat ℝ 3 4 := !![m 0 0, m 0 1, m 0 2, 0; m 1 0, m 1 1, m 1 2, 0; m 2 0, m 2 1, m 2 2, 0]
  toOpenGL l r b t n f mat

/-- `cross_product`, src/utMath/VectorFunctions.h l.367-376. -/
def cross (a b : Vec ℝ 3) : Vec ℝ 3 :=
  ![a 1 * b 2 - a 2 * b 1, a 2 * b 0 - a 0 * b 2, a 0 * b 1 - a 1 * b 0]

/-- `inner_prod` of 3-vectors. -/
def inner3 (a b : Vec ℝ 3) : ℝ := a 0 * b 0 + a 1 * b 1 + a 2 * b 2

/-- `offAxisProjectionMatrix`, Projection.cpp l.298-349. -/
noncomputable def offAxis (eye ll ul lr : Vec ℝ 3) (n f sw sh : ℝ) : Mat ℝ 4 4 :=
  let Xs : Vec ℝ 3 := fun i => (lr i - ll i) / sw
  let Ys : Vec ℝ 3 := fun i => (ul i - ll i) / sh
  let Zs := cross Xs Ys
  let Es : Vec ℝ 3 := fun i => eye i - ll i
  let distance := inner3 Es Zs
  let L := inner3 Es Xs
  let R := sw - L
  let Bu := inner3 Es Ys
  let T := sh - Bu
  let left := -L * n / distance
  let right := R * n / distance
  let buttom := -Bu * n / distance
  let top := T * n / distance
  let A := (right + left) / (right - left)
  let B := (top + buttom) / (top - buttom)
  let C := -((f + n) / (f - n))
  let D := -((2 * f * n) / (f - n))
  let proj : Mat ℝ 4 4 :=
    !![(2 * n) / (right - left), 0, A, 0;
       0, (2 * n) / (top - buttom), B, 0;
       0, 0, C, D;
       0, 0, -1, 0]
  let translation : Mat ℝ 4 4 := !![1, 0, 0, -eye 0; 0, 1, 0, -eye 1; 0, 0, 1, -eye 2; 0, 0, 0, 1]
  let m : Mat ℝ 4 4 := !![Xs 0, Ys 0, Zs 0, 0; Xs 1, Ys 1, Zs 1, 0; Xs 2, Ys 2, Zs 2, 0; 0, 0, 0, 1.0]
  let view := m.transpose * translation
  proj * view

/-- `correctOrigin`, Projection.cpp l.352-366. -/
def correctOrigin (k : Mat ℝ 3 3) (origin height : ℤ) : Mat ℝ 3 3 :=
  if origin = 0 then
    !![k 0 0, k 0 1, k 0 2;
       k 1 0, k 1 1 * -1, -k 1 2 + k 2 2 * ((height - 1 : ℤ) : ℝ);
       k 2 0, k 2 1, k 2 2]
  else k

/-- The three outputs of `decomposeProjection`. -/
structure Decomposition where
  k : Mat ℝ 3 3
  r : Mat ℝ 3 3
  t : Vec ℝ 3

/-- The upper triangular part: `gerqf` leaves other data below the diagonal, l.162-163 clears it. -/
def upper (a : Mat ℝ 3 3) : Mat ℝ 3 3 := !![a 0 0, a 0 1, a 0 2; 0, a 1 1, a 1 2; 0, 0, a 2 2]

/-- `trsm` with an upper triangular 3x3 matrix and one column: back substitution. -/
noncomputable def trsm (k : Mat ℝ 3 3) (b : Vec ℝ 3) : Vec ℝ 3 :=
  let t2 := b 2 / k 2 2
  let t1 := (b 1 - k 1 2 * t2) / k 1 1
  let t0 := (b 0 - k 0 1 * t1 - k 0 2 * t2) / k 0 0
  ![t0, t1, t2]

/-- The signs `scale`, Projection.cpp l.172-190. -/
noncomputable def scaleSigns (k r : Mat ℝ 3 3) : Vec ℝ 3 :=
  let scale : Vec ℝ 3 := if r.det < 0 then ![-1, -1, -1] else ![1, 1, 1]
  let scale : Vec ℝ 3 := if k 0 0 * scale 0 < 0 then ![scale 0 * -1, scale 1 * -1, scale 2] else scale
  if k 2 2 * scale 2 > 0 then ![scale 0, scale 1 * -1, scale 2 * -1] else scale

/-- `decomposeProjection`, Projection.cpp l.146-219. `rq` is the RQ decomposition: the matrix left by `gerqf` and the
orthogonal matrix of `orgrq`. The determinant is that of `Math::determinant`. -/
noncomputable def decompose (rq : Mat ℝ 3 3 → Mat ℝ 3 3 × Mat ℝ 3 3) (p : Mat ℝ 3 4) : Decomposition :=
  let P : Mat ℝ 3 4 := if p 2 3 < 0 then fun i j => p i j * -1 else p
  let A : Mat ℝ 3 3 := fun i j => P i (Fin.castSucc j)
  let k := upper (rq A).1
  let r := (rq A).2
  let scale := scaleSigns k r
  let k : Mat ℝ 3 3 := fun i j => k i j * scale j
  let r : Mat ℝ 3 3 := fun i j => r i j * scale i
  let f := -1 / k 2 2
  let k : Mat ℝ 3 3 := fun i j => k i j * f
  let ttmp : Vec ℝ 3 := fun i => P i 3
  ⟨k, r, trsm k ttmp⟩

end Ubitrack.ProjectionMatrix
