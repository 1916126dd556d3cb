import Verif.Model.Quaternion

/-!
# Downhill simplex (Nelder-Mead)

Models `utMath/Optimization/DownhillSimplex.h`, over exact reals. The type `VType` of l.62 is not declared
anywhere; it is read as `T`. The code indexes `y( 1 )`, so at least one parameter is needed: the number of
parameters is `n + 1`, the number of vertices `n + 2`.
-/

namespace Ubitrack.Simplex

variable {n k : ℕ}

/-- What the function is called with, l.54-55. `problem.evaluate` and `normalize.evaluate` are arbitrary
functions of the parameters. -/
structure Call (n k : ℕ) where
  evaluate : Vec ℝ (n + 1) → Vec ℝ k
  measurement : Vec ℝ k
  /-- `terminationCriteria( nfunk, y( ilo ), y( ihi ) )` -/
  terminate : ℕ → ℝ → ℝ → Bool
  normalize : Vec ℝ (n + 1) → Vec ℝ (n + 1)

/-- `ublas::norm_2( eval - measurement )`, l.77-78, l.140-141, l.177-178. -/
noncomputable def value (c : Call n k) (x : Vec ℝ (n + 1)) : ℝ :=
  Real.sqrt (∑ i, (c.evaluate x - c.measurement) i ^ 2)

/-- The variables that live across iterations, l.61-87: vertices, values, vertex sum, evaluation counter. -/
structure St (n : ℕ) where
  p : Fin (n + 2) → Vec ℝ (n + 1)
  y : Fin (n + 2) → ℝ
  psum : Vec ℝ (n + 1)
  nfunk : ℕ

/-- The sum of all vertices, l.85-87 and l.147-149: row 0, plus row `i` for `i = 1 … ndim`. -/
def sumRows (p : Fin (n + 2) → Vec ℝ (n + 1)) : Vec ℝ (n + 1) :=
  (List.finRange (n + 1)).foldl (fun acc i => acc + p i.succ) (p 0)

/-- The initial vertices, l.63-70: row 0 are the parameters, row `i` the parameters with coordinate `i - 1`
scaled, normalised. -/
noncomputable def initVertices (c : Call n k) (params : Vec ℝ (n + 1)) : Fin (n + 2) → Vec ℝ (n + 1) :=
  Fin.cases params (fun i => c.normalize (Function.update params i (params i * 1.48529)))

/-- Initial state, l.60-87. -/
noncomputable def init (c : Call n k) (params : Vec ℝ (n + 1)) : St n :=
  let p := initVertices c params
  { p := p, y := fun i => value c (p i), psum := sumRows p, nfunk := 0 }

/-- Indices of lowest, highest and next-highest vertex. -/
structure Idx (n : ℕ) where
  ilo : Fin (n + 2)
  ihi : Fin (n + 2)
  inhi : Fin (n + 2)

/-- One pass of the index search, l.100-108. -/
noncomputable def findStep (y : Fin (n + 2) → ℝ) (s : Idx n) (i : Fin (n + 2)) : Idx n :=
  let ilo := if y i ≤ y s.ilo then i else s.ilo
  if y i > y s.ihi then ⟨ilo, i, s.ihi⟩
  else if y i > y s.inhi ∧ i ≠ s.ihi then ⟨ilo, s.ihi, i⟩
  else ⟨ilo, s.ihi, s.inhi⟩

/-- The index search, l.92-109. -/
noncomputable def findIdx (y : Fin (n + 2) → ℝ) : Idx n :=
  let s : Idx n := if y 0 > y 1 then ⟨0, 0, 1⟩ else ⟨0, 1, 0⟩
  (List.finRange (n + 2)).foldl (findStep y) s

/-- `downhillSimplexTry`, l.163-189: the new state and the value of the trial point. -/
noncomputable def tryPoint (c : Call n k) (s : St n) (ihi : Fin (n + 2)) (fac : ℝ) : St n × ℝ :=
  let fac1 := (1 - fac) / ((n + 1 : ℕ) : ℝ)
  let fac2 := fac1 - fac
  let ptry := c.normalize (fac1 • s.psum - fac2 • s.p ihi)
  let ytry := value c ptry
  if ytry < s.y ihi then
    ({ s with
        y := Function.update s.y ihi ytry
        psum := s.psum + (ptry - s.p ihi)
        p := Function.update s.p ihi ptry }, ytry)
  else (s, ytry)

/-- One pass of the contraction loop, l.134-142. -/
noncomputable def contractStep (c : Call n k) (ilo : Fin (n + 2)) (s : St n) (i : Fin (n + 2)) : St n :=
  if i ≠ ilo then
    let row := c.normalize ((0.5 : ℝ) • (s.p i + s.p ilo))
    { s with p := Function.update s.p i row, y := Function.update s.y i (value c row) }
  else s

/-- The contraction around the lowest vertex, l.132-149. -/
noncomputable def contract (c : Call n k) (ilo : Fin (n + 2)) (s : St n) : St n :=
  let s := (List.finRange (n + 2)).foldl (contractStep c ilo) s
  { s with nfunk := s.nfunk + (n + 1), psum := sumRows s.p }

/-- One pass of the main loop after the termination test, l.118-153. -/
noncomputable def improve (c : Call n k) (s : St n) (ix : Idx n) : St n :=
  let s := { s with nfunk := s.nfunk + 2 }
  let r := tryPoint c s ix.ihi (-1)
  let s := r.1
  if r.2 ≤ s.y ix.ilo then
    (tryPoint c s ix.ihi 2).1
  else if r.2 ≥ s.y ix.inhi then
    let ysave := s.y ix.ihi
    let r := tryPoint c s ix.ihi 0.5
    if r.2 ≥ ysave then contract c ix.ilo r.1 else r.1
  else { s with nfunk := s.nfunk - 1 }

/-- The main loop, l.89-154, for at most `fuel` passes: `none` if still running, otherwise the point in
`params` and the returned value. -/
noncomputable def loop (c : Call n k) : ℕ → St n → Option (Vec ℝ (n + 1) × ℝ)
  | 0, _ => none
  | fuel + 1, s =>
    let ix := findIdx s.y
    if c.terminate s.nfunk (s.y ix.ilo) (s.y ix.ihi) then some (s.p ix.ilo, s.y ix.ilo)
    else loop c fuel (improve c s ix)

/-- `downhillSimplex`, l.53-155. -/
noncomputable def downhillSimplex (c : Call n k) (params : Vec ℝ (n + 1)) (fuel : ℕ) :
    Option (Vec ℝ (n + 1) × ℝ) := loop c fuel (init c params)

end Ubitrack.Simplex
