import Mathlib.Algebra.Order.Group.Int

/-!
# Model of `utMath/Optimization/Ransac.h`

The user's estimator and evaluator, and the random choices, are parameters. Iterators to data points
and indices of data points are modelled by the data points themselves. Logging and the sum
`fInlierDist`, which is only logged, are dropped.
-/

namespace Ubitrack.Ransac

/-- `int( z )` for an unsigned 64-bit difference `z`: the low 32 bits as a signed number. -/
def cast32 (z : ℤ) : ℤ := (BitVec.ofInt 32 z).toInt

/-- src/utMath/Optimization/Ransac.h l.194, 336, 445: the loop condition of the inlier count. -/
def goOn (nValues i nMinInlier nInlier : ℕ) : Bool :=
  decide (i < nValues) &&
    decide (cast32 ((nValues : ℤ) - i) ≥ cast32 ((nMinInlier : ℤ) - nInlier))

/-- src/utMath/Optimization/Ransac.h l.55-92: parameters. -/
structure Params (K : Type) where
  threshold : K
  setSize : ℕ
  nMinInlier : ℕ
  nMaxIterations : ℕ

variable {K : Type} [LinearOrder K] {α Res : Type}

/-- src/utMath/Optimization/Ransac.h l.188-203: the inlier loop from position `i` on; `inl` are the
inliers found so far. -/
def countLoop (dist : Res → α → K) (p : Params K) (n : ℕ) (h : Res) :
    List α → ℕ → List α → List α
  | [], _, inl => inl
  | x :: xs, i, inl =>
    if goOn n i p.nMinInlier inl.length then
      countLoop dist p n h xs (i + 1) (if dist h x < p.threshold then inl ++ [x] else inl)
    else inl

/-- src/utMath/Optimization/Ransac.h l.164-179: the sample: the data points at the first `setSize`
indices after shuffling. -/
def sample (data : List α) (p : Params K) (shuffle : List ℕ) : List α :=
  (shuffle.take p.setSize).filterMap (fun i => data[i]?)

/-- src/utMath/Optimization/Ransac.h l.158-221: the loop over the iterations; `shuffles` are the index
orders produced by `random_shuffle` in the remaining iterations, `best` is `iBestInliers`
(`nBestInliers` is its length). `est list r` is the estimator called on `list` with output variable
`r`: new contents and return value; `d0` is a default-constructed result. -/
def iterations (est : List α → Res → Res × Bool) (d0 : Res) (dist : Res → α → K) (p : Params K)
    (data : List α) : List (List ℕ) → List α → List α
  | [], best => best
  | shuffle :: rest, best =>
    match est (sample data p shuffle) d0 with
    | (_, false) => iterations est d0 dist p data rest best
    | (h, true) =>
      let inl := countLoop dist p data.length h data 0 []
      if inl.length = 0 then iterations est d0 dist p data rest best
      else
        let best := if inl.length ≥ p.nMinInlier ∧ inl.length > best.length then inl else best
        if best.length ≥ p.nMinInlier then best
        else iterations est d0 dist p data rest best

/-- src/utMath/Optimization/Ransac.h l.126-241: `ransac` for one list of data. Returns the count and
the contents of `result`. `none`: undefined behaviour, the sample size exceeds the number of values
(l.172). `shuffles` must have `nMaxIterations` entries. -/
def ransac (est : List α → Res → Res × Bool) (d0 : Res) (dist : Res → α → K) (p : Params K)
    (data : List α) (shuffles : List (List ℕ)) (result : Res) : Option (ℕ × Res) :=
  if p.setSize > data.length ∧ p.nMaxIterations > 0 then none
  else
    let best := iterations est d0 dist p data shuffles []
    if best.length ≥ p.nMinInlier then some (best.length, (est best result).1)
    else some (0, result)

/-- src/utMath/Optimization/Ransac.h l.261-395: `ransac` for two lists of data, walked in parallel over
the length of the first; a shorter second list is read past its end (`none`). -/
def ransac2 {β γ : Type} (est : List β → List γ → Res → Res × Bool) (d0 : Res) (dist : Res → β → γ → K)
    (p : Params K) (data1 : List β) (data2 : List γ) (shuffles : List (List ℕ)) (result : Res) :
    Option (ℕ × Res) :=
  if data2.length < data1.length then none
  else ransac (fun l r => est (l.map Prod.fst) (l.map Prod.snd) r) d0 (fun h x => dist h x.1 x.2) p
    (data1.zip data2) shuffles result

/-! ### The variant with exceptions -/

/-- What user functors can throw: `std::runtime_error` or anything else. -/
inductive Exc where
  | runtimeError
  | other
  deriving DecidableEq

/-- src/utMath/Optimization/Ransac.h l.443-453: the inlier loop from position `i` on, with `nInlier`
inliers so far; `flags` is `bInliers`. Returns `bInliers`, the count, and the exception, if any. -/
def flagLoop (dist : Res → α → Except Exc K) (thr : K) (nMin n : ℕ) (h : Res) :
    List α → ℕ → ℕ → List Bool → List Bool × Except Exc ℕ
  | [], _, nInlier, flags => (flags, .ok nInlier)
  | x :: xs, i, nInlier, flags =>
    if goOn n i nMin nInlier then
      match dist h x with
      | .error e => (flags, .error e)
      | .ok d =>
        if d < thr then flagLoop dist thr nMin n h xs (i + 1) (nInlier + 1) (flags.set i true)
        else flagLoop dist thr nMin n h xs (i + 1) nInlier (flags.set i false)
    else (flags, .ok nInlier)

/-- State of the third variant: `bInliers`, `nBestInliers`, `bBestInliers`. -/
structure VSt where
  flags : List Bool
  nBest : ℕ
  best : List Bool

/-- src/utMath/Optimization/Ransac.h l.422-473: one iteration: the `try` block. -/
def vTry (est : List α → Except Exc Res) (dist : Res → α → Except Exc K) (thr : K) (nMin : ℕ)
    (data : List α) (draw : List ℕ) (s : VSt) : Except Exc VSt :=
  match est (draw.filterMap (fun i => data[i]?)) with
  | .error .runtimeError => .ok s
  | .error .other => .error .other
  | .ok h =>
    match flagLoop dist thr nMin data.length h data 0 0 s.flags with
    | (flags, .error .runtimeError) => .ok { s with flags := flags }
    | (_, .error .other) => .error .other
    | (flags, .ok nInlier) =>
      if nInlier ≥ nMin ∧ nInlier > s.nBest then .ok ⟨flags, nInlier, flags⟩
      else .ok { s with flags := flags }

/-- Whether iteration `iRun` reaches the test of l.465 (no exception was caught). -/
def vCompleted (est : List α → Except Exc Res) (dist : Res → α → Except Exc K) (thr : K) (nMin : ℕ)
    (data : List α) (draw : List ℕ) (s : VSt) : Bool :=
  match est (draw.filterMap (fun i => data[i]?)) with
  | .error _ => false
  | .ok h =>
    match (flagLoop dist thr nMin data.length h data 0 0 s.flags).2 with
    | .error _ => false
    | .ok _ => true

/-- src/utMath/Optimization/Ransac.h l.416-475: the loop; returns the final state and the number of
iterations that were started. -/
def vLoop (est : List α → Except Exc Res) (dist : Res → α → Except Exc K) (thr : K) (nMin nMinRuns : ℕ)
    (data : List α) : List (List ℕ) → ℕ → VSt → Except Exc (VSt × ℕ)
  | [], iRun, s => .ok (s, iRun)
  | draw :: rest, iRun, s =>
    match vTry est dist thr nMin data draw s with
    | .error e => .error e
    | .ok s' =>
      if vCompleted est dist thr nMin data draw s ∧ s'.nBest ≥ nMin ∧ iRun + 1 ≥ nMinRuns then
        .ok (s', iRun + 1)
      else vLoop est dist thr nMin nMinRuns data rest (iRun + 1) s'

/-- src/utMath/Optimization/Ransac.h l.402-501: the third `ransac`. `draws` holds, for each of the
`nMaxRuns` iterations, the `nSetSize` indices drawn; the two parameter lists are walked in parallel and
modelled as a list of pairs. Returns `none` on failure (return value 0, output variables untouched),
otherwise the count, the result and the inlier flags. -/
def ransacV (est : List α → Except Exc Res) (dist : Res → α → Except Exc K) (thr : K)
    (nMin nMinRuns : ℕ) (data : List α) (draws : List (List ℕ)) :
    Except Exc (Option (ℕ × Res × List Bool)) :=
  match vLoop est dist thr nMin nMinRuns data draws 0
      ⟨List.replicate data.length false, 0, List.replicate data.length false⟩ with
  | .error e => .error e
  | .ok (s, _) =>
    if s.nBest ≥ nMin then
      match est ((data.zip s.best).filterMap (fun x => if x.2 then some x.1 else none)) with
      | .error e => .error e
      | .ok r => .ok (some (s.nBest, r, s.best))
    else .ok none

end Ubitrack.Ransac
